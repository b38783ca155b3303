import Verif.Lemmas.Links4
import Verif.Props.C01_C03_Unpacker
import Verif.Props.C20_C23_TcpSend
/-!
# C73, C74: messages of a client whose link breaks and comes back

`Links.Run c nd resend batch Links.init as s es`: a client, any number of links one after the other, sends at any time; `s.streams`: for every
link, the bytes the kernel took; `es`: what the owner of the client sees. `resend`: the user's on_send_error puts
the failed messages back in front of the send buffer (C74), otherwise it only looks at them (C73).
-/
set_option autoImplicit false
namespace StAsio

/-- Three messages; the link breaks while the second is being written, the third waits for the next link. -/
def linksDemo : List LinksAct :=
  [.send (.array [Piece.of [1]]) true, .tx .loadReady, .tx .linkUp, .tx .loadReady, .tx .loadFlag, .tx .runPosted, .tx .strand, .tx .strand,
   .send (.array [Piece.of [2]]) true, .tx .loadReady, .tx .loadFlag, .tx (.transfer 0 3), .tx (.complete 0 true), .tx (.handler 0), .tx .strand,
   .send (.array [Piece.of [3]]) true, .tx .loadReady, .tx .loadFlag, .tx (.transfer 0 2), .tx (.complete 0 false), .tx (.handler 0), .tx .strand,
   .tx .linkDown, .tx .onClose, .tx .linkUp, .tx .loadReady, .tx .loadFlag, .tx .runPosted, .tx .strand, .tx .strand, .tx (.transfer 0 3),
   .tx (.complete 0 true), .tx (.handler 0), .tx .strand, .tx .strand, .tx .strand]

/-- The same with a user that puts the second message back. -/
def linksDemo2 : List LinksAct := linksDemo.take 23 ++
  [.tx .loadReady, .tx .onClose, .tx .linkUp, .tx .loadReady, .tx .loadFlag, .tx .runPosted, .tx .strand, .tx .strand, .tx (.transfer 0 3),
   .tx (.complete 0 true), .tx (.handler 0), .tx .strand, .tx (.transfer 0 3), .tx (.complete 0 true), .tx (.handler 0), .tx .strand, .tx .strand, .tx .strand]

/-- C73 (partial: only for messages packed into one piece). Every accepted message has exactly one fate, in the order of acceptance: it was given to the kernel
on one of the links and then reported by on_msg_send (then the stream of this link contains all of it) or by on_send_error, or it is being written,
or it waits in the send buffer. The stream of each link consists of whole messages, from the first byte on, only its end may be cut. -/
theorem C73_every_message_partial (c : Cfg) (hv : c.Valid) (hh : c.bufSize < 256 ^ c.headLen) (nd : Bool) (batch : Nat)
    (as : List LinksAct) (s : Links) (es : List LinksEv) (h : Links.Run c nd false batch Links.init as s es) (hw : ∀ a ∈ as, a.Whole) :
    ∃ (parts : List LinkPart) (flight waiting : List Item),
      lSent es = (parts.map (fun p => p.written ++ p.failed)).flatten ++ flight ++ waiting ∧
      parts.length = s.streams.length ∧
      (∀ (k : Nat) (p : LinkPart) (w : Bytes), parts[k]? = some p → s.streams[k]? = some w →
        streamOf c.headLen p.written <+: w ∧
        w <+: streamOf c.headLen (p.written ++ p.failed ++ if k + 1 = parts.length then flight else [])) ∧
      lWritten es = (parts.map LinkPart.written).flatten.map (wire c.headLen) ∧
      lFailed es = (parts.map LinkPart.failed).flatten.map (wire c.headLen) ∧
      s.tx.sendingMsgs.map TxMsg.data = flight.map (wire c.headLen) ∧
      s.tx.q.items.map TxMsg.data = waiting.map (wire c.headLen) ∧
      s.bad = false ∧ s.tx.bad = false := by
  obtain ⟨ps, p, flight, waiting, hr⟩ := Links.run_rel hv hh h hw
  have hf : s.tx.sendingMsgs.map TxMsg.data = flight.map (wire c.headLen) := by rw [hr.sending, data_whole]
  have hq : s.tx.q.items.map TxMsg.data = waiting.map (wire c.headLen) := by rw [hr.queue, data_whole]
  cases hup : s.up with
  | false =>
    obtain ⟨d1, d2, d3, d4, _⟩ := hr.down hup
    have hl : ps = [] := by have := hr.len; rw [d1] at this; exact List.length_eq_zero_iff.mp (by simpa using this)
    subst d2; subst hl
    exact ⟨[], flight, waiting, by simpa using hr.all, by simp [Links.streams, hup, d1], by simp, by simpa using hr.written, by simpa using hr.failed, hf, hq, hr.bad, hr.inv.bad⟩
  | true =>
    refine ⟨ps ++ [p], flight, waiting, by simpa using hr.all, by simp [Links.streams, hup, hr.len], ?_, by simpa using hr.written, by simpa using hr.failed, hf, hq, hr.bad, hr.inv.bad⟩
    intro k q w hk hs
    simp only [Links.streams, hup, if_true] at hs
    rcases append_snoc_len hk with hk | ⟨rfl, rfl⟩
    · have hlt : k < ps.length := (List.getElem?_eq_some_iff.mp hk).1
      rw [if_neg (by simp; omega), List.append_nil]
      rw [List.getElem?_append_left (by rw [← hr.len]; exact hlt)] at hs
      exact hr.past k q w hk hs
    · rw [if_pos (by simp)]
      rw [hr.len] at hs
      simp at hs
      subst hs
      cases hd : s.dead with
      | false =>
        obtain ⟨a1, a2, a3⟩ := hr.alive hd
        refine ⟨?_, by rw [a1, List.append_nil]; exact ⟨_, a2⟩⟩
        rw [streamOf_append] at a2
        have hle := Links.unwritten_le hr.inv hr.sending
        have hlen := congrArg List.length a2
        simp only [List.length_append] at hlen
        exact List.prefix_of_prefix_length_le (List.prefix_append _ _) ⟨_, a2⟩ (by omega)
      | true => exact ⟨(hr.dead hd).1, (hr.dead hd).2.1⟩

/-- C73 (partial), at the other end: the server has a socket with a fresh default unpacker for each link and gets any first part of each stream, cut in any way.
No socket reports an unpack error. All messages received, link after link, are accepted messages, unchanged, in order of acceptance,
none of them twice. If everything the kernel took arrives, every message reported by on_msg_send is received. -/
theorem C73_received_partial (c : Cfg) (hv : c.Valid) (hh : c.bufSize < 256 ^ c.headLen) (nd : Bool) (batch : Nat)
    (as : List LinksAct) (s : Links) (es : List LinksEv) (h : Links.Run c nd false batch Links.init as s es) (hw : ∀ a ∈ as, a.Whole)
    (raw : Bytes) (hraw : raw.length = c.bufSize) (st cwf : Bool) (chunks : List (List Bytes)) (hlen : chunks.length = s.streams.length)
    (hpre : ∀ (k : Nat) (cs : List Bytes) (w : Bytes), chunks[k]? = some cs → s.streams[k]? = some w → cs.flatten <+: w) :
    ∃ got : List (List Bytes), got.length = s.streams.length ∧
      (∀ (k : Nat) (cs g : List Bytes), chunks[k]? = some cs → got[k]? = some g →
        ∃ conn, receive (unpackerOps c) cwf (Unp.init raw st) cs = some conn ∧ conn.log = g.map .msg ∧ conn.ph ≠ .stalled) ∧
      got.flatten.Sublist (expected c.headLen st (lSent es)) ∧
      ((∀ (k : Nat) (cs : List Bytes) (w : Bytes), chunks[k]? = some cs → s.streams[k]? = some w → cs.flatten = w) →
        ∃ items, lWritten es = items.map (wire c.headLen) ∧ (expected c.headLen st items).Sublist got.flatten) := by
  obtain ⟨parts, flight, waiting, hall, hpl, hst, hwr, hfa, _, _, _, _⟩ := C73_every_message_partial c hv hh nd batch as s es h hw
  obtain ⟨_, _, _, _, hr⟩ := Links.run_rel hv hh h hw
  have hsm := hr.small
  clear hr
  -- the messages of each link: those written, and those after them
  let pairs : List (List Item × List Item) := parts.mapIdx (fun k p => (p.written, p.failed ++ if k + 1 = parts.length then flight else []))
  have hpairs : ∀ k q, pairs[k]? = some q → ∃ p, parts[k]? = some p ∧ q = (p.written, p.failed ++ if k + 1 = parts.length then flight else []) := by
    intro k q hq
    simp only [pairs, List.getElem?_mapIdx, Option.map_eq_some_iff] at hq
    obtain ⟨p, hp, rfl⟩ := hq
    exact ⟨p, hp, rfl⟩
  have hplen : pairs.length = parts.length := by simp [pairs]
  have hfst : (pairs.map Prod.fst).flatten = (parts.map LinkPart.written).flatten := by
    congr 1
    simp only [pairs]
    apply List.ext_getElem?
    intro k
    simp [List.getElem?_mapIdx]
    cases parts[k]? <;> rfl
  have hsub : (pairs.map (fun p => p.1 ++ p.2)).flatten.Sublist (lSent es) := by
    rw [hall]
    have key : (pairs.map (fun p => p.1 ++ p.2)).flatten <+: (parts.map (fun p => p.written ++ p.failed)).flatten ++ flight := by
      rcases List.eq_nil_or_concat parts with hp | ⟨l, p, hp⟩
      · simp [pairs, hp]
      · have : pairs.map (fun p => p.1 ++ p.2) = l.map (fun p => p.written ++ p.failed) ++ [p.written ++ p.failed ++ flight] := by
          simp only [pairs]
          apply List.ext_getElem?
          intro k
          rw [List.getElem?_map, List.getElem?_mapIdx, hp]
          simp only [List.concat_eq_append, List.length_append, List.length_singleton]
          rcases Nat.lt_trichotomy k l.length with hk | hk | hk
          · rw [List.getElem?_append_left hk, List.getElem?_append_left (by simpa using hk), List.getElem?_map]
            cases hlk : l[k]? with
            | none => rfl
            | some q => simp only [Option.map_some]; rw [if_neg (by omega)]; simp
          · subst hk; simp
          · rw [List.getElem?_eq_none (by simp; omega), List.getElem?_eq_none (by simp; omega)]; rfl
        rw [this, hp]
        simp
    exact key.sublist.trans (List.sublist_append_left _ _)
  have hkey : ∀ (k : Nat) (cs : List Bytes) (q : List Item × List Item), chunks[k]? = some cs → pairs[k]? = some q →
      ∃ w, s.streams[k]? = some w ∧ streamOf c.headLen q.1 <+: w ∧ w <+: streamOf c.headLen (q.1 ++ q.2) ∧ cs.flatten <+: w := by
    intro k cs q hcs hq
    obtain ⟨p, hp, rfl⟩ := hpairs k q hq
    have hk : k < s.streams.length := by rw [← hlen]; exact (List.getElem?_eq_some_iff.mp hcs).1
    refine ⟨s.streams[k], List.getElem?_eq_getElem hk, ?_, ?_, hpre k cs _ hcs (List.getElem?_eq_getElem hk)⟩
    · exact (hst k p _ hp (List.getElem?_eq_getElem hk)).1
    · have := (hst k p _ hp (List.getElem?_eq_getElem hk)).2
      simpa [List.append_assoc] using this
  refine ⟨List.zipWith (fun cs part => arrived c.headLen st part (List.flatten cs).length) chunks (pairs.map (fun p => p.1 ++ p.2)), ?_, ?_, ?_, ?_⟩
  · simp [hlen, hplen, hpl]
  · intro k cs g hcs hg
    rw [List.getElem?_zipWith, hcs] at hg
    simp only [List.getElem?_map] at hg
    cases hq : pairs[k]? with
    | none => rw [hq] at hg; simp at hg
    | some q =>
      rw [hq] at hg
      simp only [Option.map_some, Option.some.injEq] at hg
      subst hg
      obtain ⟨w, _, _, hw2, hw3⟩ := hkey k cs q hcs hq
      refine receive_stream hv raw hraw st cwf _ ?_ cs (hw3.trans hw2)
      intro b hb
      refine hsm b (hsub.subset ?_)
      simp only [List.mem_flatten, List.mem_map]
      exact ⟨_, ⟨q, List.mem_of_getElem? hq, rfl⟩, hb⟩
  · refine (zip_arrived_sub c.headLen st chunks _).trans ?_
    exact (hsub.filter _).map _
  · intro hfull
    refine ⟨_, hwr, ?_⟩
    rw [← hfst]
    refine zip_arrived_all c.headLen st chunks pairs (by rw [hlen, hplen, hpl]) ?_
    intro k cs q hcs hq
    obtain ⟨w, hw0, hw1, _, _⟩ := hkey k cs q hcs hq
    rw [hfull k cs w hcs hw0]
    exact hw1.length_le

/-- C73, C74: a new link sends what waits, without any further call, whatever happened on the links before it. -/
theorem C73_resumes (c : Cfg) (nd resend : Bool) (batch : Nat) (as : List LinksAct) (s s1 : Links) (es es1 : List LinksEv)
    (h : Links.Run c nd resend batch Links.init as s es) (hu : s.step c nd resend batch (.tx .linkUp) = some (s1, es1)) :
    ∃ (bs : List TxAct) (s' : Links) (fs : List LinksEv), Links.Run c nd resend batch s1 (bs.map .tx) s' fs ∧ (∀ b ∈ bs, TxAct.Internal b) ∧ s'.tx.Quiet ∧ s'.tx.q.items = [] ∧
      s'.streams = s.streams ++ [TxMsg.bytes s.tx.q.items] := by
  obtain ⟨tas, tes, ht⟩ := Links.run_tx h
  simp only [Links.step, TxAct.linky, TxAct.isTransfer, Bool.and_false, Bool.false_eq_true, if_false, if_true, reduceCtorEq] at hu
  rw [Option.map_eq_some_iff] at hu
  obtain ⟨⟨t1, te1⟩, htu, hu⟩ := hu
  have hres := Tx.resend_quiet htu (by simp)
  have hrun : Tx.Run batch Tx.init (tas ++ [.linkUp]) t1 (tes ++ te1) := Tx.Run.snoc _ _ _ _ _ _ _ ht htu
  have hfields : t1.ready = true ∧ t1.dones = [] ∧ t1.writes = [] ∧ t1.wire = [] ∧ t1.q = s.tx.q ∧ t1.sendingMsgs = s.tx.sendingMsgs := by
    simp only [Tx.step] at htu
    split at htu
    · cases htu
    · next hg =>
      have hna := noAsync_true (s := s.tx) (by simpa using fun hf => hg (Or.inr hf))
      cases htu
      exact ⟨rfl, hna.2.2.2, hna.2.2.1, rfl, rfl, rfl⟩
  obtain ⟨f1, f2, f3, f4, f5, f6⟩ := hfields
  obtain ⟨_, bs, t', tfs, hb, hint, hq, hemp⟩ := C22_drains batch _ t1 _ hrun f1 (by simp [failedSinceUp])
  have hs1 : s1.tx = t1 ∧ s1.dead = false ∧ s1.past = s.streams ∧ s1.up = true := by
    simp only [Prod.mk.injEq] at hu
    obtain ⟨hu, _⟩ := hu
    subst hu
    refine ⟨?_, rfl, rfl, by simp⟩
    cases resend <;> simp [hres]
  have hlift := Links.lift (c := c) (nd := nd) (rs := resend) hb hint (by simp [f2]) s1 hs1.1 hs1.2.1
  refine ⟨bs, _, _, hlift.1, hint, hq, hemp, ?_⟩
  have hi1 := (Tx.run_inv Tx.init_inv hrun).1
  have hwire := Tx.run_wire hi1 hb (fun a ha => by
    have := hint a ha
    constructor
    · intro i e; subst e; exact this
    · intro e; subst e; exact this)
  have hmon := monitor_plain (Tx.run_inv hi1 hb).2 hlift.2.2
  have hw2 : t'.wire = TxMsg.bytes s.tx.q.items := by
    have hacc : acceptedMsgs tfs = [] := (Tx.internal_run hb hint).2
    simp only [Tx.ideal, hemp, hacc, List.append_nil, f5] at hmon
    rw [f4] at hwire
    simp only [Tx.unwritten, hq.2.2.1, f3, List.map_nil, List.flatten_nil, List.append_nil, List.nil_append] at hwire
    rw [hwire, hmon]
  simp only [Links.streams, hs1.2.2.2, hs1.2.2.1, if_true, hw2]

/-- C73, C74 are not vacuous: the run of the demo exists; without `resend` the second message is reported and lost, with it both are sent on the second link. -/
theorem C73_demo : (∃ s es, Links.Run exCfg true false 0 Links.init linksDemo s es ∧ (∀ a ∈ linksDemo, a.Whole) ∧ lSent es = [[1], [2], [3]] ∧
      s.streams = [[0, 3, 1, 0, 3], [0, 3, 3]] ∧ lWritten es = [[0, 3, 1], [0, 3, 3]] ∧ lFailed es = [[0, 3, 2]]) ∧
    ∃ s es, Links.Run exCfg true true 0 Links.init linksDemo2 s es ∧ (∀ a ∈ linksDemo2, a.Whole) ∧ lSent es = [[1], [2], [3]] ∧
      s.streams = [[0, 3, 1, 0, 3], [0, 3, 2, 0, 3, 3]] ∧ lWritten es = [[0, 3, 1], [0, 3, 2], [0, 3, 3]] := by
  have hr : ∀ x : Byte, Readable [Piece.of [x]] := by
    intro x p hp mem hm; simp [Piece.of] at hp; subst hp; simp at hm; subst hm; simp
  constructor
  · refine ⟨_, _, Links.exec_run rfl, ?_, by decide +kernel, by decide +kernel, by decide +kernel, by decide +kernel⟩
    simp only [linksDemo, List.forall_mem_cons]
    repeat' constructor
    all_goals first | trivial | exact hr _ | simp
  · refine ⟨_, _, Links.exec_run rfl, ?_, by decide +kernel, by decide +kernel, by decide +kernel⟩
    simp only [linksDemo, linksDemo2, List.take_succ_cons, List.take_zero, List.cons_append, List.nil_append, List.forall_mem_cons]
    repeat' constructor
    all_goals first | trivial | exact hr _ | simp

/-- C73 is false in full: the other send functions put the head and the body into the send buffer as two pieces. If the write of the head fails, the new link begins with
the body, and the server receives a message that was never sent (or reports an unpack error, depending on the body). -/
theorem C73_fails_torn : ∃ as s es, Links.Run exCfg true false 0 Links.init as s es ∧ lSent es = [[0, 3, 65]] ∧ lFailed es = [[0, 5]] ∧
    s.streams = [[], [0, 3, 65]] ∧ (receive (unpackerOps exCfg) true (Unp.init (List.replicate 8 0) true) [[0, 3, 65]]).map (·.log) = some [.msg [65]] := by
  exact ⟨[.tx .linkUp, .send (.one [0, 3, 65]) true, .tx .loadReady, .tx .loadReady, .tx .loadFlag, .tx .runPosted, .tx .strand, .tx .strand, .tx .loadFlag,
    .tx .linkDown, .tx (.complete 0 false), .tx (.handler 0), .tx .strand, .tx .onClose, .tx .linkUp, .tx .loadReady, .tx .loadFlag, .tx .runPosted, .tx .strand, .tx .strand,
    .tx (.transfer 0 3), .tx (.complete 0 true), .tx (.handler 0), .tx .strand, .tx .strand, .tx .strand],
    _, _, Links.exec_run rfl, by decide +kernel, by decide +kernel, by decide +kernel, by decide +kernel⟩

/-- C74 (partial: only for messages packed into one piece). A user that puts the messages given to on_send_error back in front of the send buffer loses nothing: the messages reported by on_msg_send are the accepted ones
in order, each of them once; link `k` begins with message number `cuts[k]` and contains, whole and in order, at least the messages up to number `cuts[k + 1]`; all others are being
written or wait. -/
theorem C74_at_least_once_partial (c : Cfg) (hv : c.Valid) (hh : c.bufSize < 256 ^ c.headLen) (nd : Bool) (batch : Nat)
    (as : List LinksAct) (s : Links) (es : List LinksEv) (h : Links.Run c nd true batch Links.init as s es) (hw : ∀ a ∈ as, a.Whole) :
    ∃ (cuts : List Nat) (n : Nat), cuts.length = s.streams.length + 1 ∧ cuts[0]? = some 0 ∧ cuts.getLast? = some n ∧ n ≤ (lSent es).length ∧
      (∀ (k a b : Nat) (w : Bytes), cuts[k]? = some a → cuts[k + 1]? = some b → s.streams[k]? = some w →
        a ≤ b ∧ streamOf c.headLen (((lSent es).take b).drop a) <+: w ∧ w <+: streamOf c.headLen ((lSent es).drop a)) ∧
      lWritten es = ((lSent es).take n).map (wire c.headLen) ∧
      (s.tx.sendingMsgs ++ s.tx.q.items).map TxMsg.data = ((lSent es).drop n).map (wire c.headLen) ∧
      s.bad = false ∧ s.tx.bad = false := by
  obtain ⟨done, flight, waiting, cuts, st, hr⟩ := Links.run_rel2 hv hh h hw
  have htake : (lSent es).take done.length = done := by rw [hr.all, List.append_assoc, List.take_left']; rfl
  have hdrop : (lSent es).drop done.length = flight ++ waiting := by rw [hr.all, List.append_assoc, List.drop_left']; rfl
  have hrest : (s.tx.sendingMsgs ++ s.tx.q.items).map TxMsg.data = ((lSent es).drop done.length).map (wire c.headLen) := by
    rw [hdrop, hr.sending, hr.queue, ← List.map_append, data_whole]
  have hle : done.length ≤ (lSent es).length := by rw [hr.all]; simp
  have hwr : lWritten es = ((lSent es).take done.length).map (wire c.headLen) := by rw [htake, hr.written]
  cases hup : s.up with
  | false =>
    obtain ⟨d1, d2, d3, _⟩ := hr.down hup
    refine ⟨cuts, done.length, by simpa [Links.streams, hup] using hr.len, hr.first, ?_, hle, ?_, hwr, hrest, hr.bad, hr.inv.bad⟩
    · have hl := hr.len
      rw [d1] at hl
      match cuts, hl, hr.first with
      | [x], _, hf => simp at hf; simp [hf, d2]
    · intro k a b w _ _ hs
      simp [Links.streams, hup, d1] at hs
  | true =>
    refine ⟨cuts ++ [done.length], done.length, by simp [Links.streams, hup, hr.len], ?_, by simp, hle, ?_, hwr, hrest, hr.bad, hr.inv.bad⟩
    · rw [List.getElem?_append_left (by rw [hr.len]; omega)]; exact hr.first
    · intro k a b w ha hb hs
      simp only [Links.streams, hup, if_true] at hs
      have hk : k < (s.past ++ [s.tx.wire]).length := (List.getElem?_eq_some_iff.mp hs).1
      simp only [List.length_append, List.length_singleton] at hk
      rw [List.getElem?_append_left (by rw [hr.len]; omega)] at ha
      rcases append_snoc_len hs with hs | ⟨rfl, rfl⟩
      · have hk2 : k < s.past.length := (List.getElem?_eq_some_iff.mp hs).1
        rw [List.getElem?_append_left (by rw [hr.len]; omega)] at hb
        obtain ⟨q1, _, q3⟩ := hr.past k a b w ha hb hs
        exact ⟨q1, q3⟩
      · rw [hr.last] at ha
        cases ha
        rw [← hr.len] at hb
        simp at hb
        subst hb
        rw [htake]
        refine ⟨hr.le, ?_⟩
        cases hd : s.dead with
        | true => exact ⟨(hr.dead hd).1, (hr.dead hd).2.1⟩
        | false =>
          obtain ⟨a2, a3⟩ := hr.alive hd
          have hpre : s.tx.wire <+: streamOf c.headLen (done.drop st ++ flight) := ⟨_, a2⟩
          constructor
          · rw [streamOf_append] at a2
            have := Links.unwritten_le hr.inv hr.sending
            have hlen := congrArg List.length a2
            simp only [List.length_append] at hlen
            exact List.prefix_of_prefix_length_le (List.prefix_append _ _) ⟨_, a2⟩ (by omega)
          · refine hpre.trans ?_
            rw [hr.all, List.append_assoc, List.drop_append_of_le_length hr.le, ← List.append_assoc, streamOf_append c.headLen (done.drop st ++ flight)]
            exact List.prefix_append _ _

/-- C74 (partial), at the other end: on each link the server receives, in order and unchanged, messages from number `cuts[k]` on, and at least those up to
number `cuts[k + 1]` if everything the kernel took arrives. -/
theorem C74_received_partial (c : Cfg) (hv : c.Valid) (hh : c.bufSize < 256 ^ c.headLen) (nd : Bool) (batch : Nat)
    (as : List LinksAct) (s : Links) (es : List LinksEv) (h : Links.Run c nd true batch Links.init as s es) (hw : ∀ a ∈ as, a.Whole)
    (raw : Bytes) (hraw : raw.length = c.bufSize) (st cwf : Bool) :
    ∃ (cuts : List Nat) (n : Nat), cuts.length = s.streams.length + 1 ∧ cuts[0]? = some 0 ∧ cuts.getLast? = some n ∧
      lWritten es = ((lSent es).take n).map (wire c.headLen) ∧
      ∀ (k a b : Nat) (w : Bytes) (cs : List Bytes), cuts[k]? = some a → cuts[k + 1]? = some b → s.streams[k]? = some w → cs.flatten <+: w →
        a ≤ b ∧ ∃ conn got, receive (unpackerOps c) cwf (Unp.init raw st) cs = some conn ∧ conn.log = got.map .msg ∧ conn.ph ≠ .stalled ∧
          got <+: expected c.headLen st ((lSent es).drop a) ∧
          (cs.flatten = w → expected c.headLen st (((lSent es).take b).drop a) <+: got) := by
  obtain ⟨cuts, n, h1, h2, h3, h4, h5, h6, _⟩ := C74_at_least_once_partial c hv hh nd batch as s es h hw
  obtain ⟨_, _, _, _, _, hr⟩ := Links.run_rel2 hv hh h hw
  refine ⟨cuts, n, h1, h2, h3, h6, ?_⟩
  intro k a b w cs ha hb hs hcs
  obtain ⟨q1, q2, q3⟩ := h5 k a b w ha hb hs
  refine ⟨q1, ?_⟩
  obtain ⟨conn, e1, e2, e3⟩ := receive_stream hv raw hraw st cwf ((lSent es).drop a) (fun x hx => hr.small x (List.mem_of_mem_drop hx)) cs (hcs.trans q3)
  refine ⟨conn, _, e1, e2, e3, arrived_prefix c.headLen st _ _, ?_⟩
  intro hfull
  have hsplit : (lSent es).drop a = ((lSent es).take b).drop a ++ (lSent es).drop b := by
    conv => lhs; rw [← List.take_append_drop b (lSent es)]
    rw [List.drop_append]
    congr 1
    rcases Nat.le_total b (lSent es).length with hbl | hbl
    · rw [List.length_take, Nat.min_eq_left hbl, Nat.sub_eq_zero_of_le q1]; rfl
    · simp [List.drop_eq_nil_of_le hbl]
  rw [hsplit]
  refine arrived_at_least c.headLen st _ _ _ ?_
  rw [hfull]
  exact q2.length_le

/-- C74: a message may be received twice, once on each of two links. -/
theorem C74_fails_once : ∃ as s es, Links.Run exCfg true true 0 Links.init as s es ∧ (∀ a ∈ as, a.Whole) ∧ lSent es = [[1]] ∧ lWritten es = [[0, 3, 1]] ∧
    s.streams = [[0, 3, 1], [0, 3, 1]] := by
  refine ⟨[.tx .linkUp, .send (.array [Piece.of [1]]) true, .tx .loadReady, .tx .loadReady, .tx .loadFlag, .tx .runPosted, .tx .strand, .tx .strand, .tx .loadFlag,
    .tx (.transfer 0 3), .tx .linkDown, .tx (.complete 0 false), .tx (.handler 0), .tx .strand, .tx .onClose, .tx .linkUp, .tx .loadReady, .tx .loadReady, .tx .loadFlag, .tx .loadFlag,
    .tx .runPosted, .tx .strand, .tx .strand,
    .tx (.transfer 0 3), .tx (.complete 0 true), .tx (.handler 0), .tx .strand, .tx .strand, .tx .strand], _, _, Links.exec_run rfl, ?_, by decide +kernel, by decide +kernel, by decide +kernel⟩
  have hr : Readable [Piece.of [1]] := by
    intro p hp mem hm; simp [Piece.of] at hp; subst hp; simp at hm; subst hm; decide
  intro a ha
  simp only [List.mem_cons, List.not_mem_nil, or_false] at ha
  rcases ha with rfl | rfl | rfl | rfl | rfl | rfl | rfl | rfl | rfl | rfl | rfl | rfl | rfl | rfl | rfl | rfl | rfl | rfl | rfl | rfl | rfl | rfl | rfl | rfl | rfl | rfl | rfl | rfl | rfl <;>
    first | trivial | exact hr

/-- C74 is false in full: if the head was written and the write of the body fails, putting the body back makes the new link begin with it. -/
theorem C74_fails_torn : ∃ as s es, Links.Run exCfg true true 0 Links.init as s es ∧ lSent es = [[0, 3, 65]] ∧
    s.streams = [[0, 5], [0, 3, 65]] ∧ (receive (unpackerOps exCfg) true (Unp.init (List.replicate 8 0) true) [[0, 3, 65]]).map (·.log) = some [.msg [65]] := by
  exact ⟨[.tx .linkUp, .send (.one [0, 3, 65]) true, .tx .loadReady, .tx .loadReady, .tx .loadFlag, .tx .runPosted, .tx .strand, .tx .strand, .tx .loadFlag,
    .tx (.transfer 0 2), .tx (.complete 0 true), .tx (.handler 0), .tx .strand,
    .tx .linkDown, .tx (.complete 0 false), .tx (.handler 0), .tx .strand, .tx .onClose, .tx .linkUp, .tx .loadReady, .tx .loadReady, .tx .loadFlag, .tx .runPosted, .tx .strand, .tx .strand,
    .tx (.transfer 0 3), .tx (.complete 0 true), .tx (.handler 0), .tx .strand, .tx .strand, .tx .strand],
    _, _, Links.exec_run rfl, by decide +kernel, by decide +kernel, by decide +kernel⟩

end StAsio
