import Verif.Lemmas.KcpPipe
/-!
# C75: messages over reliable UDP arrive as they were sent

`KPipe.Run nd buf limit (KPipe.init max) as s es`: the actions `as` of the threads that send, of the sending socket, of KCP, of the network and of the receiving socket lead to the
state `s`; `es` is what the two applications could observe (Model/KcpPipe, Spec/KcpPipe). `buf`: ST_ASIO_MSG_BUFFER_SIZE of the receiver; `limit`: the size of its receive buffer;
`max`: the initial max_nsnd_que of the sender.
-/
set_option autoImplicit false
namespace StAsio

/-- C75, nothing is invented, changed, repeated or reordered, whatever datagrams the network loses, delays or repeats, and whatever ikcp_send refuses; nothing empty is handled; and no
assertion fails. -/
theorem C75_only_sent (max : Nat) (nd : Bool) (buf limit : Nat) (as : List KpAct) (s : KPipe) (es : List KpEv) (h : KPipe.Run nd buf limit (KPipe.init max) as s es) :
    (kpHandled es).Sublist (kpSent es) ∧ (∀ m ∈ kpHandled es, m ≠ [] ∧ m.length ≤ buf) ∧ s.bad = false := by
  have hg := KPipe.run_good h
  obtain ⟨ras, res, r1, r2, r3, r4⟩ := hg.rx
  have hm := rMonitor_plain (Rx.run_inv Rx.init_inv r1).2 r2
  have hpre : kpHandled es <+: (s.kc.took.take s.arrived).takeWhile (kpFits buf) := by
    rw [← r4, ← r3]
    refine ⟨s.rx.cur.toList ++ s.rx.buf.items, ?_⟩
    simpa [Rx.ideal, Rx.init, Q.init] using hm.symm
  have hsub : (kpHandled es).Sublist s.kc.took :=
    hpre.sublist.trans ((List.takeWhile_prefix _).sublist.trans (List.take_sublist _ _))
  refine ⟨?_, ?_, hg.bad⟩
  · refine hsub.trans ((Kc.took_sublist _).trans ?_)
    rw [← hg.order.1]
    exact List.sublist_append_left _ _
  · intro m hmem
    refine ⟨hg.took_full m (hsub.subset hmem), ?_⟩
    have h1 := takeWhile_all _ _ m (hpre.subset hmem)
    simpa [kpFits] using h1

/-- C75, exactly once and in order: as long as ikcp_send refuses nothing, the handled messages are the first of the accepted ones; reception never gets past a message that does not fit into
the buffer. -/
theorem C75_in_order_partial (max : Nat) (nd : Bool) (buf limit : Nat) (as : List KpAct) (s : KPipe) (es : List KpEv) (h : KPipe.Run nd buf limit (KPipe.init max) as s es)
    (hn : ∀ a ∈ as, a.NoRefusal) : kpHandled es <+: (kpSent es).takeWhile (kpFits buf) := by
  have hg := KPipe.run_good h
  have hall := KPipe.run_given h (by simp [KPipe.init, Kc.init]) hn
  obtain ⟨ras, res, r1, r2, r3, r4⟩ := hg.rx
  have hm := rMonitor_plain (Rx.run_inv Rx.init_inv r1).2 r2
  have hpre : kpHandled es <+: (s.kc.took.take s.arrived).takeWhile (kpFits buf) := by
    rw [← r4, ← r3]
    refine ⟨s.rx.cur.toList ++ s.rx.buf.items, ?_⟩
    simpa [Rx.ideal, Rx.init, Q.init] using hm.symm
  refine hpre.trans (takeWhile_mono _ _ _ ((List.take_prefix _ _).trans ?_))
  rw [Kc.took_all hall, ← hg.order.1]
  exact List.prefix_append _ _

/-- C75, delivery: as long as ikcp_send refuses nothing and the messages fit into the receiver's buffer, from every reachable state the library, KCP and the network can go on, without
the applications sending anything, until every accepted message was handled. If some message does not fit: every message before it. -/
theorem C75_delivers_partial (max : Nat) (nd : Bool) (buf limit : Nat) (hlim : 0 < limit) (as : List KpAct) (s : KPipe) (es : List KpEv)
    (h : KPipe.Run nd buf limit (KPipe.init max) as s es) (hn : ∀ a ∈ as, a.NoRefusal) :
    ∃ as' s' es', KPipe.Run nd buf limit s as' s' es' ∧ (∀ a ∈ as', a.Internal ∧ a.NoRefusal) ∧ kpSent es' = [] ∧
      kpHandled (es ++ es') = (kpSent es).takeWhile (kpFits buf) ∧ ((∀ m ∈ kpSent es, m.length ≤ buf) → kpHandled (es ++ es') = kpSent es) := by
  have hg := KPipe.run_good h
  -- the sender
  obtain ⟨kas, kes, hr, hp, _, _⟩ := hg.kc
  have hf : kFatalSinceUp (.create :: .u .linkUp :: kas) = false := by
    have : ∀ l : List KAct, (∀ a ∈ l, a.plain = true) → l.foldl kFatal false = false := by
      intro l
      induction l with
      | nil => intro _; rfl
      | cons a l ih =>
        intro hl
        rw [List.foldl_cons, KAct.plain_fatal (hl a (by simp))]
        exact ih (fun x hx => hl x (by simp [hx]))
    exact this kas hp
  obtain ⟨bs, t, fs, hb, hauto, hq⟩ := Kc.empties s.kc.work _ s.kc kes (Nat.le_refl _) hr hg.ready hf hg.stopped hg.order.2 hg.writes
  have c1 := KPipe.lift_kc (nd := nd) (buf := buf) (limit := limit) (s := s) hb (fun a ha => (hauto a ha).1)
  have hrun1 := KPipe.run_trans h c1
  have hg1 := KPipe.run_good hrun1
  -- the receiver
  obtain ⟨rs1, t1, f1, c2, i1, hrd, _⟩ := KPipe.rest (nd := nd) hlim hg1
  have hg2 := KPipe.run_good (KPipe.run_trans hrun1 c2)
  -- everything arrives
  have harr := hg2.arrived
  simp only at harr
  have hnet : ∃ s3 f2, KPipe.step nd buf limit { { s with kc := t } with rx := t1 } (.net (t.took.length - s.arrived)) = some (s3, f2) ∧
      s3.kc = t ∧ s3.arrived = t.took.length := by
    simp only [KPipe.step]
    have hc : ¬ (s.bad = true ∨ t1.rd ≠ .reading ∨ t.took.length < s.arrived + (t.took.length - s.arrived)) := by
      rw [hg.bad, hrd]; simp; omega
    rw [if_neg hc]
    have hk := kcpRecv_eq nd buf ((t.took.take (s.arrived + (t.took.length - s.arrived))).drop s.taken)
      (fun m hm => hg2.took_full m (List.mem_of_mem_take (List.mem_of_mem_drop hm)))
    rw [hk]
    simp only [Rx.step, hrd]
    simp only [ne_eq, not_true_eq_false, if_false]
    split
    · exact ⟨_, _, rfl, rfl, by simp only; omega⟩
    · split <;> exact ⟨_, _, rfl, rfl, by simp only; omega⟩
  obtain ⟨s3, f2, hs3, k3, a3⟩ := hnet
  have hrun3 := KPipe.run_trans (KPipe.run_trans hrun1 c2) (KPipe.run_one hs3)
  have hg3 := KPipe.run_good hrun3
  obtain ⟨rs2, t2, f3, c4, i4, _, hh⟩ := KPipe.rest (nd := nd) hlim hg3
  have hcont := KPipe.run_trans (KPipe.run_trans (KPipe.run_trans c1 c2) (KPipe.run_one hs3)) c4
  have hfull := KPipe.run_trans h hcont
  have hact : ∀ a ∈ bs.map KpAct.k ++ rs1.map KpAct.rx ++ [.net (t.took.length - s.arrived)] ++ rs2.map KpAct.rx, a.Internal ∧ a.NoRefusal := by
    have hrx : ∀ b : RAct, b.Internal → (KpAct.rx b).Internal ∧ (KpAct.rx b).NoRefusal := by
      intro b hb
      refine ⟨?_, trivial⟩
      cases b with
      | ret ok => cases ok with
        | true => rfl
        | false => exact absurd hb (by simp [RAct.Internal])
      | _ => trivial
    intro a ha
    simp only [List.mem_append, List.mem_map, List.mem_singleton] at ha
    rcases ha with ((⟨b, hb, rfl⟩ | ⟨b, hb, rfl⟩) | rfl) | ⟨b, hb, rfl⟩
    · obtain ⟨a1, a2, a3⟩ := hauto b hb
      constructor
      · cases b with
        | u b => cases b with
          | send m p f => rcases a2 with a2 | a2 <;> exact absurd a2 (by simp [KAct.Internal, KAct.Kcp])
          | _ => trivial
        | setMax n => rcases a2 with a2 | a2 <;> exact absurd a2 (by simp [KAct.Internal, KAct.Kcp])
        | _ => trivial
      · cases b with
        | strand segs => cases segs with
          | none => exact absurd rfl a3
          | some n => trivial
        | _ => trivial
    · exact hrx b (i1 b hb)
    · exact ⟨trivial, trivial⟩
    · exact hrx b (i4 b hb)
  have hsent : kpSent (fs.filterMap kpTxEv ++ f1 ++ f2 ++ f3) = [] := by
    -- what was accepted before is what KCP has now
    have hno : ∀ (s1 s2 : KPipe) (cs : List KpAct) (gs : List KpEv), KPipe.Run nd buf limit s1 cs s2 gs → (∀ a ∈ cs, a.Internal) → kpSent gs = [] := by
      intro s1 s2 cs gs hr
      induction hr with
      | nil => intro _; rfl
      | snoc x1 x2 cs a gs gs' _ hs ih =>
        intro hc
        rw [kpSent_append, ih (fun b hb => hc b (by simp [hb])), List.nil_append]
        have hca := hc a (by simp)
        cases a with
        | rx a =>
          simp only [KPipe.step] at hs
          split at hs
          · rw [Option.map_eq_some_iff] at hs; obtain ⟨r, _, h2⟩ := hs; cases h2; exact (kpRxEv_view _).2
          · cases hs
        | net n =>
          simp only [KPipe.step] at hs
          split at hs
          · cases hs
          · split at hs
            · cases hs; rfl
            · rw [Option.map_eq_some_iff] at hs; obtain ⟨r, _, h2⟩ := hs; cases h2; exact (kpRxEv_view _).2
        | k a =>
          simp only [KPipe.step] at hs
          split at hs
          · next hpl =>
            rw [Option.map_eq_some_iff] at hs
            obtain ⟨⟨r, rs⟩, h1, h2⟩ := hs
            cases h2
            rw [(kpTxEv_view _).1, Kc.quiet_accept hpl hca h1]
            rfl
          · cases hs
    exact hno _ _ _ _ hcont (fun a ha => (hact a ha).1)
  have hall : ∀ g ∈ s3.kc.given, g.2 = true :=
    KPipe.run_given hrun3 (by simp [KPipe.init, Kc.init]) (by
      intro a ha
      simp only [List.mem_append] at ha
      rcases ha with ((ha | ha) | ha) | ha
      · exact hn a ha
      · exact (hact a (by simp only [List.mem_append]; exact Or.inl (Or.inl (Or.inl ha)))).2
      · exact (hact a (by simp only [List.mem_append]; exact Or.inl (Or.inl (Or.inr ha)))).2
      · exact (hact a (by simp only [List.mem_append]; exact Or.inl (Or.inr ha))).2)
  have htook : t.took = kpSent es := by
    have ho := hg3.order.1
    rw [← Kc.took_all hall, k3] at ho
    have hq' : t.ux.q.items.map UMsg.data = [] := by rw [hq]; rfl
    rw [hq', List.append_nil] at ho
    rw [ho]
    have : kpSent (fs.filterMap kpTxEv ++ f1 ++ f2) = [] := by
      rw [kpSent_append] at hsent
      exact (List.append_eq_nil_iff.mp hsent).1
    rw [show es ++ fs.filterMap kpTxEv ++ f1 ++ f2 = es ++ (fs.filterMap kpTxEv ++ f1 ++ f2) by simp, kpSent_append, this, List.append_nil]
  have hfin : kpHandled (es ++ (fs.filterMap kpTxEv ++ f1 ++ f2 ++ f3)) = (kpSent es).takeWhile (kpFits buf) := by
    rw [k3, a3, List.take_length, htook] at hh
    rw [← hh]
    simp
  refine ⟨_, _, _, hcont, hact, hsent, hfin, fun hfit => ?_⟩
  rw [hfin]
  refine takeWhile_self _ _ ?_
  intro m hm
  simpa [kpFits] using hfit m hm

/-- C75, a message that is too long stops the link for good: neither it nor anything accepted after it will ever be handled, whatever happens. -/
theorem C75_stalls (max : Nat) (nd : Bool) (buf limit : Nat) (as : List KpAct) (s : KPipe) (es : List KpEv) (h : KPipe.Run nd buf limit (KPipe.init max) as s es)
    (hn : ∀ a ∈ as, a.NoRefusal) (pre post : List Bytes) (m : Bytes) (hs : kpSent es = pre ++ m :: post) (hm : buf < m.length) :
    kpHandled es <+: pre := by
  refine (C75_in_order_partial max nd buf limit as s es h hn).trans ?_
  rw [hs]
  have hf : kpFits buf m = false := by simp only [kpFits, decide_eq_false_iff_not]; omega
  clear hs
  induction pre with
  | nil => simp [hf]
  | cons x pre ih =>
    simp only [List.cons_append, List.takeWhile_cons]
    split
    · exact List.cons_prefix_cons.mpr ⟨rfl, ih⟩
    · exact List.nil_prefix

/-- The sender's part of the examples: three messages are sent, KCP takes `r1`, `r2`, `r3` segments for them. -/
def kpDemoTx (m1 m2 m3 : Bytes) (r1 r2 r3 : Option Nat) : List KpAct :=
  [.k (.u (.send ⟨7, m1, none⟩ false true)), .k (.u (.send ⟨7, m2, none⟩ false true)), .k (.u .loadReady), .k (.u .loadFlag), .k (.u .runPosted),
   .k (.strand none), .k (.strand none), .k (.strand r1), .k (.u (.handler 0)), .k (.u (.send ⟨7, m3, none⟩ false true)), .k (.strand none), .k (.strand r2), .k (.u (.handler 0)),
   .k (.strand none), .k (.strand r3), .k (.u (.handler 0))]

/-- The same with ikcp_send refusing nothing. -/
def kpDemoTx' (m1 m2 m3 : Bytes) : List KpAct :=
  [.k (.u (.send ⟨7, m1, none⟩ false true)), .k (.u (.send ⟨7, m2, none⟩ false true)), .k (.u .loadReady), .k (.u .loadFlag), .k (.u .runPosted),
   .k (.strand (some 1)), .k (.strand (some 1)), .k (.strand (some 2)), .net 1, .k (.u (.handler 0)), .k (.u (.send ⟨7, m3, none⟩ false true)), .k (.strand (some 1)), .k (.strand (some 1)),
   .k (.u (.handler 0)), .k (.strand (some 1)), .k (.strand (some 1)), .k (.u (.handler 0))]

/-- One message is handled. -/
def kpDemoRx : List KpAct := [.rx .run, .rx .begin, .rx (.ret true), .rx .dis, .rx .dis]

/-- Non-vacuity: three messages, a lost or useless datagram, a refusal by on_msg_handle; two messages arrive with one datagram. -/
theorem C75_demo : ∃ as s es, KPipe.Run false 3 100 (KPipe.init 5) as s es ∧ (∀ a ∈ as, a.NoRefusal) ∧ kpSent es = [[1, 2, 3], [4], [5, 6]] ∧ kpHandled es = [[1, 2, 3], [4], [5, 6]] ∧
    .handled [1, 2, 3] false ∈ es := by
  have h : KPipe.Run false 3 100 (KPipe.init 5) (kpDemoTx' [1, 2, 3] [4] [5, 6] ++
      [.rx .loadDisp, .rx .run, .rx .begin, .rx (.ret false), .rx .dis, .rx .handled, .net 0, .rx .handled, .rx .dtimer] ++ kpDemoRx ++ [.net 2, .rx .loadDisp, .rx .handled] ++
      kpDemoRx ++ kpDemoRx) _ _ := KPipe.exec_run rfl
  refine ⟨_, _, _, h, ?_, by decide +kernel, by decide +kernel, by decide +kernel⟩
  simp only [kpDemoTx', kpDemoRx, List.cons_append, List.nil_append, List.forall_mem_cons]
  repeat' constructor
  all_goals simp

/-- A message that does not fit into the receiver's buffer: the sender's on_msg_send was called for it and for those behind it, everything arrived at the receiver's KCP, and whatever happens
afterwards, nothing is handled any more. -/
theorem C75_fails_big : ∃ as s es, KPipe.Run false 3 100 (KPipe.init 5) as s es ∧ kpSent es = [[1, 2, 3, 4], [5], [6]] ∧ s.kc.ux.q.items = [] ∧ s.arrived = 3 ∧
    ∀ as' s' es', KPipe.Run false 3 100 s as' s' es' → (∀ a ∈ as', a.NoRefusal) → kpHandled (es ++ es') = [] := by
  have h : KPipe.Run false 3 100 (KPipe.init 5) (kpDemoTx' [1, 2, 3, 4] [5] [6] ++ [.rx .handled, .net 2]) _ _ := KPipe.exec_run rfl
  refine ⟨_, _, _, h, by decide +kernel, by decide +kernel, by decide +kernel, ?_⟩
  intro as' s' es' hr hn
  have hn1 : ∀ a ∈ (kpDemoTx' [1, 2, 3, 4] [5] [6] ++ [.rx .handled, .net 2]) ++ as', a.NoRefusal := by
    intro a ha
    rw [List.mem_append] at ha
    rcases ha with ha | ha
    · revert a
      simp only [kpDemoTx', List.cons_append, List.nil_append, List.forall_mem_cons]
      repeat' constructor
      all_goals simp
    · exact hn a ha
  have := C75_stalls 5 false 3 100 _ _ _ (KPipe.run_trans h hr) hn1 [] ([[5], [6]] ++ kpSent es') [1, 2, 3, 4] (by rw [kpSent_append]; rfl) (by decide)
  simpa using this

/-- A message that ikcp_send refuses is left out, those behind it arrive; nobody is told. -/
theorem C75_fails_refused : ∃ as s es, KPipe.Run false 3 100 (KPipe.init 5) as s es ∧ kpSent es = [[1], [2], [3]] ∧ kpHandled es = [[1], [3]] ∧ s.kc.ux.q.items = [] ∧ s.arrived = s.kc.took.length := by
  have h : KPipe.Run false 3 100 (KPipe.init 5) (kpDemoTx [1] [2] [3] (some 1) none (some 1) ++ [.net 2, .rx .loadDisp] ++ kpDemoRx ++ kpDemoRx) _ _ := KPipe.exec_run rfl
  exact ⟨_, _, _, h, by decide +kernel, by decide +kernel, by decide +kernel, by decide +kernel⟩

/-- A peer that does not use this library can send an empty message through KCP: the receiver's process ends in an assertion (unless NDEBUG is defined; then on_msg_handle gets it). -/
theorem C75_fails_empty (buf : Nat) (ms : List Bytes) : kcpRecv false buf ([] :: ms) = none ∧ (kcpRecv true buf [[]]) = some [[]] := by
  constructor <;> simp [kcpRecv]

end StAsio
