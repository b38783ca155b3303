import Verif.Lemmas.UdpPipe3
/-!
# C96: from send_msg of UDP sockets to on_msg and on_msg_handle of another one, over any network

`me` is the receiving socket, `u.bufSize` is ST_ASIO_MSG_BUFFER_SIZE, `c : MCfg` says which of ST_ASIO_DISPATCH_BATCH_MSG, ST_ASIO_SYNC_DISPATCH and ST_ASIO_PASSIVE_RECV the receiving program defines.
`UPipe.Run me u c limit (UPipe.init raw) as s es`: the actions `as` of applications, library, kernels and network lead to `s`, and `es` is what can be observed (Spec/UdpPipe.lean): `uAccepted (upTx i es)` are the messages socket
`i` accepted, `upLeft es` the datagrams that left, `upCopies es` which of them arrived (any of them any number of times, in any order), `upArrived es` the contents of everything that arrived, `mOnMsg`, `mLeft`, `mHandled` of `upRx es`
(Spec/RecvModes.lean) the messages on_msg was called with, those it left, and those on_msg_handle accepted or took.
-/
set_option autoImplicit false
namespace StAsio

theorem UPipe.start {me : Nat} {u : Cfg} {c : MCfg} {limit : Nat} {raw : Bytes} {s : UPipe} {as : List UPAct} {es : List UPEv} (hr : raw.length = u.bufSize)
    (h : UPipe.Run me u c limit (UPipe.init raw) as s es) : s.Good me u c limit es := by
  have := UPipe.run_good (UPipe.init_good (me := me) (u := u) (c := c) (limit := limit) hr) h
  simpa using this

/-- C96, the receiver: one message for each datagram that arrived, cut off at the size of the buffer, in the order of arrival; an empty datagram is skipped. All of them go to on_msg and what it leaves to on_msg_handle (synchronous
dispatching), or all of them go to on_msg_handle (`nonEmpty`: with passive receiving an empty message says that a receive completed no message). -/
theorem C96_in_order (me : Nat) (u : Cfg) (c : MCfg) (limit : Nat) (raw : Bytes) (hraw : raw.length = u.bufSize) (s : UPipe) (as : List UPAct) (es : List UPEv)
    (h : UPipe.Run me u c limit (UPipe.init raw) as s es) :
    (c.sync = true → dgShown u.bufSize (upArrived es) = mOnMsg (upRx es) ++ s.rm.fresh ++ dgShown u.bufSize s.kq ∧ mLeft (upRx es) = mHandled (upRx es) ++ s.rm.cur.toList ++ s.rm.buf.items) ∧
    (c.sync = false → dgShown u.bufSize (upArrived es) = nonEmpty (mHandled (upRx es) ++ s.rm.cur.toList ++ s.rm.buf.items ++ s.rm.fresh) ++ dgShown u.bufSize s.kq ∧ mOnMsg (upRx es) = [] ∧
      (c.passive = false → ∀ m ∈ mHandled (upRx es), m ≠ [])) ∧
    s.bad = false ∧ s.rm.bad = false ∧ ∀ i, (s.tx i).bad = false := by
  have hg := UPipe.start hraw h
  obtain ⟨mas, hr, _⟩ := hg.rm
  obtain ⟨f1, f2, f3, f4⟩ := Rm.fresh_run hr
  have o1 := C57_order hr (by
    intro e he
    rcases List.mem_cons.1 he with rfl | he
    · trivial
    · exact hg.plain e he)
  simp only [mQueued, mHandled, mReceived, mOnMsg, mLeft, mReceivedOrEmpty] at f1 f2 f3 f4 o1
  have hrec := hg.received
  have hne : ∀ m ∈ mReceived (upRx es), m ≠ [] := by
    intro m hm
    have hm : m ∈ dgShown u.bufSize (upArrived es) := by rw [← hrec]; simp [hm]
    simp only [dgShown, nonEmpty, List.mem_filter] at hm
    intro h; rw [h] at hm; simp at hm
  refine ⟨?_, ?_, hg.bad, hg.rm_inv.1.bad, fun i => (hg.sender i).1.bad⟩
  · intro hc
    obtain ⟨q1, q2⟩ := f1 hc
    exact ⟨by rw [← hrec, q1], by rw [← q2]; exact o1⟩
  · intro hc
    refine ⟨?_, (f4 hc).1, ?_⟩
    · rw [← hrec]
      congr 1
      cases hp : c.passive with
      | false =>
        have q := f2 hc hp
        rw [o1] at q
        rw [← q, nonEmpty_id hne]
      | true =>
        have q := congrArg nonEmpty (f3 hc hp)
        rw [nonEmpty_received, nonEmpty_id hne, nonEmpty_append, o1] at q
        have hf : nonEmpty (if s.rm.hp = .parsed then orEmpty s.rm.temp else []) = nonEmpty s.rm.fresh := by
          simp only [Rm.fresh]
          split
          · exact nonEmpty_orEmpty _
          · rfl
        rw [hf, ← nonEmpty_append] at q
        exact q
    · intro hp m hm
      have q := f2 hc hp
      rw [o1] at q
      exact hne m (by rw [q]; simp [hm])

/-- C96, the senders: every datagram that left a socket has exactly the content and the destination of a message this socket accepted, and no message leaves more often than it was accepted. Without priority, pop and shrink the datagrams leave in the
order in which the messages were accepted (messages the kernel refused are missing). -/
theorem C96_left (me : Nat) (u : Cfg) (c : MCfg) (limit : Nat) (raw : Bytes) (hraw : raw.length = u.bufSize) (s : UPipe) (as : List UPAct) (es : List UPEv)
    (h : UPipe.Run me u c limit (UPipe.init raw) as s es) (i : Nat) :
    (∀ m, (leftBy i (upLeft es)).count m ≤ (uAccepted (upTx i es)).count m) ∧
    ((∀ e ∈ upTx i es, UPlainEv e) → (leftBy i (upLeft es)).Sublist (uAccepted (upTx i es))) := by
  have hg := UPipe.start hraw h
  have hs := hg.handed i
  obtain ⟨_, hm, _⟩ := hg.sender i
  refine ⟨fun m => ?_, fun hp => ?_⟩
  · have h1 := uMonitor_count hm m
    have h2 := hs.count_le m
    simp only [List.count_nil] at h1
    omega
  · refine hs.trans ?_
    have := uMonitor_plain hm hp
    simp only [List.nil_append] at this
    rw [this]
    exact List.sublist_append_left _ _

/-- C96, nothing is made up, whatever the network does: every message given to on_msg, and every non-empty one given to on_msg_handle without synchronous dispatching, is the content of one datagram (cut off at the size of the buffer), which somebody
else sent, or which is a whole message that one of the sockets accepted for this receiver. -/
theorem C96_genuine (me : Nat) (u : Cfg) (c : MCfg) (limit : Nat) (raw : Bytes) (hraw : raw.length = u.bufSize) (s : UPipe) (as : List UPAct) (es : List UPEv)
    (h : UPipe.Run me u c limit (UPipe.init raw) as s es) (b : Bytes) (hb : b ∈ mOnMsg (upRx es) ∨ (c.sync = false ∧ b ∈ mHandled (upRx es) ∧ b ≠ [])) :
    (∃ d, UPEv.arrived none d ∈ es ∧ b = d.take u.bufSize) ∨ ∃ i m, m ∈ uAccepted (upTx i es) ∧ m.peer = me ∧ b = m.data.take u.bufSize := by
  obtain ⟨h1, h2, _⟩ := C96_in_order me u c limit raw hraw s as es h
  have hin : b ∈ dgShown u.bufSize (upArrived es) := by
    cases hc : c.sync with
    | true =>
      rcases hb with hb | ⟨hb, _⟩
      · rw [(h1 hc).1]; simp [hb]
      · rw [hc] at hb; cases hb
    | false =>
      obtain ⟨q1, q2, _⟩ := h2 hc
      rcases hb with hb | ⟨_, hb, hne⟩
      · rw [q2] at hb; cases hb
      · rw [q1, List.mem_append]
        left
        simp only [nonEmpty, List.mem_filter]
        refine ⟨by simp [hb], ?_⟩
        cases b <;> simp_all
  have hin : ∃ d ∈ upArrived es, b = d.take u.bufSize := by
    simp only [dgShown, nonEmpty, List.mem_filter, List.mem_map] at hin
    obtain ⟨⟨d, hd, rfl⟩, _⟩ := hin
    exact ⟨d, hd, rfl⟩
  obtain ⟨d, hd, rfl⟩ := hin
  have harr := mem_upArrived hd
  obtain ⟨k, hk⟩ := harr
  cases k with
  | none => exact .inl ⟨d, hk, rfl⟩
  | some k =>
    obtain ⟨i, m, w1, w2, w3⟩ := (UPipe.start hraw h).copies k d hk
    refine .inr ⟨i, m, ?_, w2, by rw [w3]⟩
    have hl : m ∈ leftBy i (upLeft es) := by
      simp only [leftBy, List.mem_map, List.mem_filter]
      exact ⟨(i, m), ⟨List.mem_of_getElem? w1, by simp⟩, rfl⟩
    have := (C96_left me u c limit raw hraw s as es h i).1 m
    exact List.count_pos_iff.mp (Nat.lt_of_lt_of_le (List.count_pos_iff.mpr hl) this)

/-- C96, a network that does not reorder or duplicate (the copies arrive in the order in which the datagrams left): from each socket, a part of the messages it accepted for this receiver arrives, in order. -/
theorem C96_fifo (me : Nat) (u : Cfg) (c : MCfg) (limit : Nat) (raw : Bytes) (hraw : raw.length = u.bufSize) (s : UPipe) (as : List UPAct) (es : List UPEv)
    (h : UPipe.Run me u c limit (UPipe.init raw) as s es) (hn : (upCopies es).Pairwise (· < ·)) (i : Nat) (hp : ∀ e ∈ upTx i es, UPlainEv e) :
    (upFrom i es).Sublist (toMe me (uAccepted (upTx i es))) := by
  have hg := UPipe.start hraw h
  have h1 := sublist_of_sorted hn (mine_sorted me 0 (upLeft es)) hg.copies_mine
  have h2 := h1.filterMap (contentOf i (upLeft es))
  rw [mine_from] at h2
  exact h2.trans (toMe_sublist ((C96_left me u c limit raw hraw s as es h i).2 hp))

/-- C96, a network that does not duplicate: no content arrives from a socket more often than it was accepted for this receiver. -/
theorem C96_at_most_once (me : Nat) (u : Cfg) (c : MCfg) (limit : Nat) (raw : Bytes) (hraw : raw.length = u.bufSize) (s : UPipe) (as : List UPAct) (es : List UPEv)
    (h : UPipe.Run me u c limit (UPipe.init raw) as s es) (hn : (upCopies es).Nodup) (i : Nat) (d : Bytes) :
    (upFrom i es).count d ≤ (toMe me (uAccepted (upTx i es))).count d := by
  have hg := UPipe.start hraw h
  have h1 : (upFrom i es).count d ≤ (toMe me (leftBy i (upLeft es))).count d := by
    rw [← mine_from]
    have := countP_le_of_nodup (p := fun k => contentOf i (upLeft es) k == some d) hn hg.copies_mine
    have key : ∀ l : List Nat, (l.filterMap (contentOf i (upLeft es))).count d = l.countP (fun k => contentOf i (upLeft es) k == some d) := by
      intro l
      induction l with
      | nil => rfl
      | cons k l ih =>
        rw [List.filterMap_cons, List.countP_cons]
        cases hk : contentOf i (upLeft es) k with
        | none => simpa using ih
        | some x => simp [List.count_cons, ih]
    rw [key]
    show (List.filterMap (contentOf i (upLeft es)) (upCopies es)).count d ≤ _
    rw [key]
    exact this
  have h2 : ∀ ms : List UMsg, (toMe me ms).count d = ms.countP (fun m => m.peer == me && m.data == d) := by
    intro ms
    induction ms with
    | nil => rfl
    | cons m ms ih =>
      rw [show m :: ms = [m] ++ ms from rfl, List.countP_append, ← ih]
      simp only [toMe, List.filter_append, List.map_append, List.count_append]
      congr 1
      by_cases h1 : m.peer = me <;> by_cases h2 : m.data = d <;> simp [h1, h2]
  rw [h2] at *
  have h3 : ∀ (a b : List UMsg), (∀ m, a.count m ≤ b.count m) → ∀ p : UMsg → Bool, a.countP p ≤ b.countP p := by
    intro a
    induction a with
    | nil => intro b _ p; simp
    | cons x a ih =>
      intro b hb p
      have hx : x ∈ b := by
        have := hb x
        rw [List.count_cons_self] at this
        exact List.count_pos_iff.mp (by omega)
      have h1 := ih (b.erase x) (by
        intro m
        have := hb m
        rw [List.count_cons] at this
        rw [List.count_erase]
        by_cases hm : x == m
        · rw [if_pos hm] at this ⊢; omega
        · rw [if_neg hm] at this ⊢; omega) p
      have h2 : b.countP p = (x :: b.erase x).countP p := (List.perm_cons_erase hx).countP_eq p
      rw [h2]
      simp only [List.countP_cons]
      omega
  exact Nat.le_trans h1 (h3 _ _ (C96_left me u c limit raw hraw s as es h i).1 _)

/-- C96, nothing gets stuck: whatever the applications did before, if the network has brought every datagram once and in order so far (`hnet`) and no kernel has found a sending socket invalid, then the library, the kernels and the network, with a
receiving application that accepts messages (and asks for more, with passive receiving), can go on until every message accepted by the sockets `l` was sent or refused by the kernel (none is refused from now on), every datagram for this receiver has
arrived exactly once and in order, and everything that arrived was given to the receiving application. -/
theorem C96_delivers (me : Nat) (u : Cfg) (c : MCfg) (limit : Nat) (hlim : 0 < limit) (raw : Bytes) (hraw : raw.length = u.bufSize) (s : UPipe) (as : List UPAct) (es : List UPEv)
    (h : UPipe.Run me u c limit (UPipe.init raw) as s es) (ha : ∀ a ∈ as, a.Sound) (hnet : upCopies es <+: mine me 0 (upLeft es)) (l : List Nat) :
    ∃ bs s' fs, UPipe.Run me u c limit s bs s' fs ∧ (∀ b ∈ bs, b.Goes c.passive) ∧ (∀ i, uAccepted (upTx i fs) = []) ∧
      (∀ i ∈ l, (s'.tx i).q.items = [] ∧ leftBy i (upLeft (es ++ fs)) = uSent (upTx i (es ++ fs)) ∧
        ((∀ e ∈ upTx i es, UPlainEv e) → (uOutcomes (upTx i (es ++ fs))).map (fun o => o.1) = uAccepted (upTx i es))) ∧
      upCopies (es ++ fs) = mine me 0 (upLeft (es ++ fs)) ∧
      (c.sync = true → mOnMsg (upRx (es ++ fs)) = dgShown u.bufSize (upArrived (es ++ fs)) ∧ mHandled (upRx (es ++ fs)) = mLeft (upRx (es ++ fs))) ∧
      (c.sync = false → nonEmpty (mHandled (upRx (es ++ fs))) = dgShown u.bufSize (upArrived (es ++ fs))) := by
  have hg := UPipe.start hraw h
  obtain ⟨b1, s1, f1, r1, p1, q1, t1, _⟩ := UPipe.all_sent (me := me) (u := u) (c := c) (limit := limit) l s
  have hg1 := UPipe.run_good hg r1
  obtain ⟨rest, hrest, hin⟩ := mine_prefix_rest (M := upLeft f1) hnet
  rw [← upLeft_append, ← hg1.net] at hin
  obtain ⟨b2, s2, f2, r2, p2, q2, t2, w2, k2⟩ := UPipe.brings (me := me) (u := u) (c := c) (limit := limit) rest s1 hin
  have hg2 := UPipe.run_good hg1 r2
  obtain ⟨b3, s3, f3, r3, p3, t3, w3, q3, k3, x3, y3, z3, o3⟩ := UPipe.receives hlim _ s2 _ hg2 rfl
  have hg3 := UPipe.run_good hg2 r3
  have hrun := UPipe.run_trans (UPipe.run_trans r1 r2) r3
  have hgoes : ∀ b ∈ b1 ++ b2 ++ b3, b.Goes c.passive := by
    intro b hb
    rcases List.mem_append.1 hb with hb | hb
    · rcases List.mem_append.1 hb with hb | hb
      · exact (p1 b hb).1
      · obtain ⟨k, rfl⟩ := p2 b hb; trivial
    · exact p3 b hb
  have eall : es ++ (f1 ++ f2 ++ f3) = es ++ f1 ++ f2 ++ f3 := by simp
  refine ⟨_, s3, _, hrun, hgoes, ?_, ?_, ?_, ?_⟩
  · intro i
    rw [upTx_append, upTx_append, t2, t3, List.append_nil, List.append_nil, q1.acc]
  · intro i hi
    have hquiet : (s3.tx i).Quiet := by rw [x3, k2]; exact t1 i hi
    rw [eall]
    obtain ⟨_, hm, hl⟩ := hg3.sender i
    have hitems : (s3.tx i).q.items = [] := by
      obtain ⟨tas, g1, g2⟩ := UPipe.tx_run (P := fun a => uFatal false a = false) (UPipe.run_trans h hrun) (by
        intro a hx j x hax
        refine UPAct.sound_fatal (i := j) ?_
        rw [← hax]
        rcases List.mem_append.1 hx with hx | hx
        · exact ha a hx
        · exact UPAct.goes_sound (hgoes a hx)) i
      obtain ⟨_, _, _, d1, d2, _⟩ := hg3.tx i
      exact C24_no_lost_wakeup false _ _ _ (Ux.run_trans Ux.up_run g1) hquiet d1 (Ux.fatal_run (by
        intro a hx
        rw [List.singleton_append] at hx
        rcases List.mem_cons.1 hx with rfl | hx
        · rfl
        · exact g2 a hx)) d2
    obtain ⟨y1, y2, y3, y4, _⟩ := hquiet
    have hcur : (s3.tx i).cur = none := (hg3.sender i).1.none y3 y4
    refine ⟨hitems, ?_, fun hp => ?_⟩
    · rw [hl, Ux.pendingOk, y4]; simp
    · have hp : ∀ e ∈ upTx i (es ++ f1 ++ f2 ++ f3), UPlainEv e := by
        obtain ⟨tas, g1, g2⟩ := UPipe.tx_run (P := fun a => (UPAct.tx 0 a).Goes c.passive) hrun (by
          intro a hx j x hax
          have := hgoes a hx
          subst hax
          exact this) i
        rw [← eall, upTx_append]
        intro e he
        rcases List.mem_append.1 he with he | he
        · exact hp e he
        · exact Ux.goes_run_plain g2 g1 e he
      have e1 := uMonitor_outcomes hm
      have e2 := uMonitor_plain hm hp
      rw [hcur] at e1
      rw [hitems] at e2
      simp only [List.nil_append, List.append_nil, Option.toList] at e1 e2
      rw [← e1, ← e2, ← eall, upTx_append, uAccepted_append, upTx_append, upTx_append, t2, t3, List.append_nil, List.append_nil, q1.acc, List.append_nil]
  · rw [eall, upCopies_append, upCopies_append, upCopies_append, q1.cop, q2, k3, List.append_nil, List.append_nil, hrest, upLeft_append, upLeft_append, upLeft_append, w2, w3, List.append_nil, List.append_nil]
  · rw [eall]
    obtain ⟨c1, c2, _⟩ := C96_in_order me u c limit raw hraw s3 _ _ (UPipe.run_trans h hrun)
    rw [eall] at c1 c2
    obtain ⟨v1, v2, _⟩ := Rm.work_zero hg3.rm_inv.1 z3
    have hf : s3.rm.fresh = [] := by simp [Rm.fresh, o3]
    rw [y3, hf, v1, v2] at c1 c2
    simp only [dgShown, nonEmpty, Option.toList, List.append_nil, List.map_nil, List.filter_nil] at c1 c2 ⊢
    exact ⟨fun hc => ⟨(c1 hc).1.symm, (c1 hc).2.symm⟩, fun hc => (c2 hc).1.symm⟩

/-- C96 for one sender on a network that loses, duplicates and reorders nothing: if only socket `i` sends, all its messages are for this receiver and fit into its buffer, no kernel refuses a datagram and nobody else sends, then the system can go on until
on_msg (synchronous dispatching) or on_msg_handle got exactly the messages accepted, each once, whole and in order. -/
theorem C96_all_handled (me : Nat) (u : Cfg) (c : MCfg) (limit : Nat) (hlim : 0 < limit) (raw : Bytes) (hraw : raw.length = u.bufSize) (s : UPipe) (as : List UPAct) (es : List UPEv)
    (h : UPipe.Run me u c limit (UPipe.init raw) as s es) (ha : ∀ j k fatal, UPAct.tx j (.complete k false fatal) ∉ as) (hnet : upCopies es <+: mine me 0 (upLeft es)) (halone : upAlone es) (i : Nat)
    (hone : ∀ j, j ≠ i → uAccepted (upTx j es) = []) (hfit : ∀ m ∈ uAccepted (upTx i es), m.peer = me ∧ m.data.length ≤ u.bufSize) (hplain : ∀ e ∈ upTx i es, UPlainEv e) :
    ∃ bs s' fs, UPipe.Run me u c limit s bs s' fs ∧ (∀ b ∈ bs, b.Goes c.passive) ∧
      (c.sync = true → mOnMsg (upRx (es ++ fs)) = (uAccepted (upTx i es)).map (fun m => m.data)) ∧
      (c.sync = false → nonEmpty (mHandled (upRx (es ++ fs))) = (uAccepted (upTx i es)).map (fun m => m.data)) := by
  have hpass : ∀ a ∈ as, ∀ j x, a = .tx j x → x.passes := by
    intro a hx j x hax
    unfold UAct.passes
    split
    · subst hax; exact ha _ _ _ hx
    · trivial
  obtain ⟨bs, s', fs, g1, g2, g3, g4, g5, g6, g7⟩ := C96_delivers me u c limit hlim raw hraw s as es h (by
    intro a hx
    unfold UPAct.Sound
    split
    · exact ha _ _ _ hx
    · trivial) hnet [i]
  obtain ⟨_, k2, k3⟩ := g4 i (by simp)
  have hrun := UPipe.run_trans h g1
  have hg := UPipe.start hraw hrun
  obtain ⟨tas, t1, t2⟩ := UPipe.tx_run (P := UAct.passes) hrun (by
    intro a hx j x hax
    rcases List.mem_append.1 hx with hx | hx
    · exact hpass a hx j x hax
    · have := g2 a hx
      subst hax
      exact Ux.goes_passes this) i
  have hsent : leftBy i (upLeft (es ++ fs)) = uAccepted (upTx i es) := by
    rw [k2, (Ux.passes_run t1 t2 (by simp [UPipe.init, Ux.init])).2, k3 hplain]
  have honly : upLeft (es ++ fs) = (uAccepted (upTx i es)).map (fun m => (i, m)) := by
    rw [← hsent]
    refine leftBy_only (fun j hj => ?_)
    have := (C96_left me u c limit raw hraw s' _ _ hrun j).1
    rw [upTx_append, uAccepted_append, hone j hj, g3 j] at this
    cases hl : leftBy j (upLeft (es ++ fs)) with
    | nil => rfl
    | cons m ms => have := this m; rw [hl] at this; simp at this
  have harr : upArrived (es ++ fs) = (uAccepted (upTx i es)).map (fun m => m.data) := by
    rw [up_copies_alone hg.copies (upAlone_append halone (upAlone_run g1 g2)), g5]
    have := mine_filterMap (me := me) (fun x : Nat × UMsg => some x.2.data) [] (upLeft (es ++ fs))
    rw [List.length_nil, List.nil_append] at this
    rw [this, honly]
    generalize uAccepted (upTx i es) = ms at hfit
    induction ms with
    | nil => rfl
    | cons m ms ih => simp [(hfit m (by simp)).1, ih (fun x hx => hfit x (by simp [hx]))]
  have hshow : dgShown u.bufSize (upArrived (es ++ fs)) = (uAccepted (upTx i es)).map (fun m => m.data) := by
    rw [harr]
    refine dgShown_fits ?_
    intro d hd
    rw [List.mem_map] at hd
    obtain ⟨m, hm, rfl⟩ := hd
    refine ⟨(hfit m hm).2, ?_⟩
    refine Ux.accepted_nonEmpty t1 m ?_
    rw [upTx_append, uAccepted_append]
    simp [hm]
  exact ⟨bs, s', fs, g1, g2, fun hc => by rw [(g6 hc).1, hshow], fun hc => by rw [g7 hc, hshow]⟩

/-! ### runs -/

/-- Socket 1 sends two datagrams to socket 7 and one to socket 8, socket 2 sends one to socket 7. -/
def udpSends : List UPAct :=
  [.tx 1 (.send ⟨7, [1, 2], none⟩ false true), .tx 1 .loadReady, .tx 1 .loadFlag, .tx 1 .runPosted, .tx 1 (.strand true false), .tx 1 (.strand true false), .tx 1 (.strand true false), .tx 1 (.complete 0 true false),
   .tx 1 (.send ⟨8, [9], none⟩ false true), .tx 2 (.send ⟨7, [3, 4, 5, 6, 7, 8], none⟩ false true), .tx 1 (.handler 0), .tx 1 (.strand true false), .tx 1 (.strand true false), .tx 1 (.complete 0 true false),
   .tx 2 .loadReady, .tx 2 .loadFlag, .tx 2 .runPosted, .tx 2 (.strand true false), .tx 2 (.strand true false), .tx 2 (.strand true false), .tx 2 (.complete 0 true false)]

/-- Non-vacuity of C96: the datagrams for socket 7 arrive in the opposite order, the first one twice, and a stranger's empty one; the buffer has 4 bytes. -/
theorem C96_demo : ∃ s es, UPipe.Run 7 ⟨false, 4⟩ ⟨false, false, false⟩ 100 (UPipe.init [0, 0, 0, 0])
      (udpSends ++ [.rx (.doRecv true), .arrive 2, .arrive 0, .stranger [], .arrive 0, .recv, .rx .handle, .rx .loadDisp, .rx (.handled true), .rx .run, .rx .begin, .rx (.ret true), .rx .dis, .recv, .rx .handle]) s es ∧
    upLeft es = [(1, ⟨7, [1, 2], none⟩), (1, ⟨8, [9], none⟩), (2, ⟨7, [3, 4, 5, 6, 7, 8], none⟩)] ∧ upCopies es = [2, 0, 0] ∧ upArrived es = [[3, 4, 5, 6, 7, 8], [1, 2], [], [1, 2]] ∧
    upFrom 1 es = [[1, 2], [1, 2]] ∧ mHandled (upRx es) = [[3, 4, 5, 6]] ∧ s.rm.buf.items = [[1, 2]] ∧ s.kq = [[], [1, 2]] := by
  have h : ∃ r, UPipe.exec 7 ⟨false, 4⟩ ⟨false, false, false⟩ 100 (UPipe.init [0, 0, 0, 0])
      (udpSends ++ [.rx (.doRecv true), .arrive 2, .arrive 0, .stranger [], .arrive 0, .recv, .rx .handle, .rx .loadDisp, .rx (.handled true), .rx .run, .rx .begin, .rx (.ret true), .rx .dis, .recv, .rx .handle]) = some r := ⟨_, rfl⟩
  obtain ⟨⟨s, es⟩, h⟩ := h
  refine ⟨s, es, UPipe.exec_run h, ?_⟩
  have e : some (s, es) = some _ := h.symm.trans rfl
  cases e
  decide +kernel

/-- The hypotheses of C96_fifo, C96_at_most_once, C96_delivers and C96_all_handled can be met: one sender, a perfect network so far. -/
theorem C96_demo_perfect : ∃ s es, UPipe.Run 7 ⟨false, 4⟩ ⟨false, false, true⟩ 100 (UPipe.init [0, 0, 0, 0])
      [.tx 1 (.send ⟨7, [1, 2], none⟩ false true), .tx 1 (.send ⟨7, [3], none⟩ false true), .tx 1 .loadReady, .tx 1 .loadFlag, .tx 1 .runPosted, .tx 1 (.strand true false), .tx 1 (.strand true false), .tx 1 (.strand true false),
       .tx 1 (.complete 0 true false), .rx (.doRecv true), .arrive 0, .recv, .rx .handle] s es ∧
    upCopies es = [0] ∧ mine 7 0 (upLeft es) = [0] ∧ uAccepted (upTx 1 es) = [⟨7, [1, 2], none⟩, ⟨7, [3], none⟩] ∧ mQueued (upRx es) = [[1, 2]] ∧ (∀ e ∈ es, ∀ d, e ≠ .arrived none d) := by
  have h : ∃ r, UPipe.exec 7 ⟨false, 4⟩ ⟨false, false, true⟩ 100 (UPipe.init [0, 0, 0, 0])
      [.tx 1 (.send ⟨7, [1, 2], none⟩ false true), .tx 1 (.send ⟨7, [3], none⟩ false true), .tx 1 .loadReady, .tx 1 .loadFlag, .tx 1 .runPosted, .tx 1 (.strand true false), .tx 1 (.strand true false), .tx 1 (.strand true false),
       .tx 1 (.complete 0 true false), .rx (.doRecv true), .arrive 0, .recv, .rx .handle] = some r := ⟨_, rfl⟩
  obtain ⟨⟨s, es⟩, h⟩ := h
  refine ⟨s, es, UPipe.exec_run h, ?_⟩
  have e : some (s, es) = some _ := h.symm.trans rfl
  cases e
  refine ⟨by decide +kernel, by decide +kernel, by decide +kernel, by decide +kernel, ?_⟩
  intro e he d hd
  subst hd
  simp at he

end StAsio
