import Verif.Lemmas.EndToEnd
import Verif.Props.C20_C23_TcpSend
import Verif.Props.C25_C27_RecvDispatch
set_option autoImplicit false
namespace StAsio

/-! ### progress of the whole path -/

theorem flatten_length_ge (l : List Bytes) (h : ∀ f ∈ l, 1 ≤ f.length) : l.length ≤ l.flatten.length := by
  induction l with
  | nil => simp
  | cons f l ih =>
    have h1 := h f (by simp)
    have h2 := ih (fun g hg => h g (by simp [hg]))
    simp only [List.length_cons, List.flatten_cons, List.length_append]
    omega

/-- Every decoded message takes bytes out of what is pending. -/
theorem frameDec_count {hl maxLen : Nat} (h0 : 0 < hl) {st : Bool} {x q : Bytes} {ms : List Bytes} (h : frameDec hl maxLen st x = (ms, some q)) :
    ms.length + q.length ≤ x.length := by
  simp only [frameDec, Prod.mk.injEq] at h
  obtain ⟨h1, h2⟩ := h
  have hf := frames_flatten hl maxLen x
  have hl := frames_lengths hl maxLen x
  generalize frames _ maxLen x = r at *
  have hr : r.2.rest = q := by
    cases hr : r.2 with
    | incomplete r' => rw [hr] at h2; simp at h2; simp [Tail.rest, h2]
    | bad r' => rw [hr] at h2; simp at h2
  have hlen := congrArg List.length hf
  rw [List.length_append, hr] at hlen
  have hge := flatten_length_ge r.1 (fun f hf => by have := hl f hf; omega)
  have hv : ms.length ≤ r.1.length := by
    rw [← h1, visible, List.length_map]; exact List.length_filter_le _ _
  omega

/-- Bytes read but not decoded yet. -/
def Pipe.pend (s : Pipe) : Nat :=
  match s.conn.ph with
  | .reading _ got _ => s.conn.u.remain + got
  | .stalled => 0

theorem UnpRel.pend_eq {c : Cfg} {st : Bool} {s : Pipe} {p : Bytes} (h : UnpRel c st s.conn p) : s.pend = p.length := by
  obtain ⟨got, h1, h2, h3⟩ := h.ph
  simp only [Pipe.pend, h1]
  rw [← h2, List.length_take, h.raw]
  omega

/-- An upper bound for the number of steps that go on without the applications. -/
def Pipe.work (s : Pipe) : Nat := 60 * s.tx.work + 40 * (s.tx.wire.length - s.off) + 20 * s.pend + s.rx.work

theorem Tx.healthy_work {batch : Nat} {s s' : Tx} {a : TxAct} {es : List TxEv} (h : s.Inv) (ha : a.healthy = true) (hs : s.step batch a = some (s', es)) :
    s'.work < s.work ∧ s'.work + s'.wire.length ≤ s.work + s.wire.length := by
  have hw := Tx.step_work h (TxAct.healthy_internal ha) hs
  refine ⟨hw, ?_⟩
  have hown := h.owner
  have hle : s.writes.length + s.dones.length ≤ 1 := by
    have : (if s.sending then 1 else 0) ≤ 1 := by split <;> omega
    omega
  by_cases hsame : s'.wire = s.wire
  · rw [hsame]; omega
  · cases a with
    | transfer i k =>
      simp only [Tx.step] at hs
      cases hwr : s.writes[i]? with
      | none => simp [hwr] at hs
      | some w =>
        simp only [hwr, Option.bind_eq_bind, Option.bind_some] at hs
        split at hs
        · cases hs
        · rename_i hk
          cases hs
          obtain ⟨e1, e2⟩ := length_one_eq (by omega) hwr
          subst e2
          simp only [not_or, List.length_drop, Nat.not_lt] at hk
          simp only [Tx.work, Tx.pcWork, e1, List.set_cons_zero, writeWork, List.length_append, List.length_take, List.length_drop]
          omega
    | complete i ok =>
      simp only [Tx.step, Option.bind_eq_bind] at hs
      rw [Option.bind_eq_some_iff] at hs
      obtain ⟨w, hw, hs⟩ := hs
      split at hs
      · cases hs
      · cases hs; exact absurd rfl hsame
    | handler i =>
      simp only [Tx.step, Option.bind_eq_bind] at hs
      rw [Option.bind_eq_some_iff] at hs
      obtain ⟨w, hw, hs⟩ := hs
      split at hs
      · cases hs
      · simp only [Tx.handler, Option.some.injEq] at hs
        split at hs <;> (cases hs; exact absurd rfl hsame)
    | strand =>
      simp only [Tx.step, Tx.strand] at hs
      (repeat' split at hs) <;> (cases hs; try exact absurd rfl hsame)
    | loadReady => simp only [Tx.step] at hs; split at hs <;> (cases hs; try exact absurd rfl hsame)
    | loadFlag => simp only [Tx.step] at hs; split at hs <;> (cases hs; try exact absurd rfl hsame)
    | runPosted => simp only [Tx.step] at hs; split at hs <;> (cases hs; try exact absurd rfl hsame)
    | _ => simp [TxAct.healthy] at ha

/-- Every step of the library, the kernels and the network, except a poll that finds the receive buffer still full, brings the path closer to rest. -/
theorem Pipe.step_work {c : Cfg} (hv : c.Valid) {nd cwf : Bool} {st : Bool} {batch limit : Nat} {s s' : Pipe} {a : PAct}
    {es fs : List PEv} (h : s.Good c st batch limit es) (ha : a.Internal) (hs : s.step c nd cwf batch limit a = some (s', fs)) :
    s'.work < s.work ∨ (a = .rx .checkTimer ∧ s' = s) := by
  cases a with
  | send call fits => exact absurd ha (by simp [PAct.Internal])
  | tx a =>
    left
    simp only [Pipe.step] at hs
    split at hs
    · next hh =>
      rw [Option.map_eq_some_iff] at hs
      obtain ⟨⟨t, tes⟩, h1, h2⟩ := hs
      cases h2
      obtain ⟨w1, w2⟩ := Tx.healthy_work h.tx_inv hh h1
      have hoff := h.off
      simp only [Pipe.work, Pipe.pend]
      omega
    · cases hs
  | rx a =>
    simp only [Pipe.step] at hs
    split at hs
    · next hh =>
      rw [Option.map_eq_some_iff] at hs
      obtain ⟨⟨t, tes⟩, h1, h2⟩ := hs
      cases h2
      have hi : a.Internal := by
        cases a with
        | ret ok => simp only [PAct.Internal] at ha; subst ha; trivial
        | _ => simp_all [RAct.healthy, RAct.Internal]
      rcases Rx.step_work h.rx_inv hi h1 with hw | ⟨hw1, hw2⟩
      · left
        simp only [Pipe.work, Pipe.pend]
        omega
      · right
        rw [hw1, hw2]
        exact ⟨rfl, rfl⟩
    · cases hs
  | net k =>
    left
    obtain ⟨ras, res, r1, r2, r3, r4, p, r5, r6⟩ := h.rx
    simp only [Pipe.step] at hs
    split at hs
    · next cap got want hrd hph =>
      split at hs
      · next hk =>
        obtain ⟨k0, k1, k2, k3⟩ := hk
        have hdl : ((s.tx.wire.drop s.off).take k).length = k := by rw [List.length_take, List.length_drop]; omega
        have hsplit : s.tx.wire.take (s.off + k) = s.tx.wire.take s.off ++ (s.tx.wire.drop s.off).take k := by
          rw [List.take_add]
        generalize hd : (s.tx.wire.drop s.off).take k = d at *
        obtain ⟨conn, hc, hm⟩ := (unpacker_simulates c hv st cwf).step s.conn p cap got want d r6 hph
          (by intro h0; rw [h0] at hdl; simp at hdl; omega) (by omega) (by omega)
        obtain ⟨q, hq⟩ := h.arrived (s.off + k) k3
        have hmore := (frameDec_incremental c.headLen c.bufSize c.headLen_pos st).more _ d _ p r5
        rw [← hsplit, hq] at hmore
        cases hdec : frameDec c.headLen c.bufSize st (p ++ d) with
        | mk ms t =>
          rw [hdec] at hmore hm
          simp only [Prod.mk.injEq] at hmore
          obtain ⟨hm1, hm2⟩ := hmore
          subst hm2
          simp only at hm
          obtain ⟨hlog, hrel⟩ := hm
          have hcount := frameDec_count c.headLen_pos hdec
          rw [List.length_append, hdl] at hcount
          have hp0 := r6.pend_eq
          rw [hc] at hs
          simp only at hs
          split at hs
          · rw [Option.map_eq_some_iff] at hs
            obtain ⟨⟨t, tes⟩, h1, h2⟩ := hs
            cases h2
            rw [hlog, newMsgs_append] at h1
            have hp1 : (Pipe.mk s.tx (s.off + k) conn t s.bad).pend = q.length := UnpRel.pend_eq (s := Pipe.mk s.tx (s.off + k) conn t s.bad) hrel
            have hwk : t.work ≤ s.rx.work + 5 + 10 * ms.length := by
              have hti := Rx.step_inv (Rx.run_inv Rx.init_inv r1).1 h1
              have hmon := hti.2
              simp only [Rx.step, hrd] at h1
              simp only [ne_eq, not_true_eq_false, if_false] at h1
              split at h1
              · next he => cases h1; simp only [Rx.work, Rx.pcWork, hrd, RPc.work]; omega
              · split at h1
                · cases h1; exact absurd hti.1.bad (by simp)
                · next q' hq' =>
                  cases h1
                  have hit : q'.items = s.rx.buf.items ++ ms := by
                    simp [IdealRx.monitor, IdealRx.event, Rx.ideal] at hmon
                    exact hmon.symm
                  simp only [Rx.work, Rx.pcWork, hrd, RPc.work, hit, List.length_append]
                  omega
            simp only [Pipe.work]
            rw [hp1, hp0]
            omega
          · simp only [Option.some.injEq, Prod.mk.injEq] at hs
            obtain ⟨rfl, rfl⟩ := hs
            have hp1 : (Pipe.mk s.tx (s.off + k) conn s.rx s.bad).pend = q.length := UnpRel.pend_eq (s := Pipe.mk s.tx (s.off + k) conn s.rx s.bad) hrel
            simp only [Pipe.work]
            rw [hp1, hp0]
            omega
      · cases hs
    · cases hs

theorem Pipe.run_trans {c : Cfg} {nd cwf : Bool} {batch limit : Nat} {s s1 s2 : Pipe} {as bs : List PAct} {es fs : List PEv}
    (h1 : Pipe.Run c nd cwf batch limit s as s1 es) (h2 : Pipe.Run c nd cwf batch limit s1 bs s2 fs) : Pipe.Run c nd cwf batch limit s (as ++ bs) s2 (es ++ fs) := by
  induction h2 with
  | nil => simpa using h1
  | snoc s2 s3 bs a fs fs' _ hs ih =>
    rw [← List.append_assoc, ← List.append_assoc]
    exact Pipe.Run.snoc _ _ _ _ _ _ _ ih hs

theorem Pipe.run_one {c : Cfg} {nd cwf : Bool} {batch limit : Nat} {s s1 : Pipe} {a : PAct} {es : List PEv} (h : s.step c nd cwf batch limit a = some (s1, es)) :
    Pipe.Run c nd cwf batch limit s [a] s1 es := by
  have := Pipe.Run.snoc _ _ _ _ _ _ _ (Pipe.Run.nil (c := c) (nd := nd) (cwf := cwf) (batch := batch) (limit := limit) s) h
  simpa using this

theorem Pipe.exec_run {c : Cfg} {nd cwf : Bool} {batch limit : Nat} {s s' : Pipe} {as : List PAct} {es : List PEv} (h : Pipe.exec c nd cwf batch limit s as = some (s', es)) :
    Pipe.Run c nd cwf batch limit s as s' es := by
  induction as generalizing s es with
  | nil => simp [Pipe.exec] at h; obtain ⟨rfl, rfl⟩ := h; exact Pipe.Run.nil _
  | cons a as ih =>
    simp only [Pipe.exec, Option.bind_eq_bind] at h
    rw [Option.bind_eq_some_iff] at h
    obtain ⟨⟨s1, e1⟩, h1, h2⟩ := h
    rw [Option.bind_eq_some_iff] at h2
    obtain ⟨⟨s2, e2⟩, h2, h3⟩ := h2
    simp at h3
    obtain ⟨rfl, rfl⟩ := h3
    exact Pipe.run_trans (Pipe.run_one h1) (ih h2)

theorem TxAct.internal_healthy {a : TxAct} (h : a.Internal) : a.healthy = true := by
  cases a with
  | complete i ok => cases ok <;> simp_all [TxAct.healthy, TxAct.Internal]
  | _ => simp_all [TxAct.healthy, TxAct.Internal]

theorem RAct.internal_healthy {a : RAct} (h : a.Internal) : a.healthy = true := by
  cases a with
  | ret ok => cases ok <;> simp_all [RAct.healthy, RAct.Internal]
  | _ => simp_all [RAct.healthy, RAct.Internal]

/-- Everything that was accepted was read, decoded and handled. -/
theorem Pipe.Good.rest {c : Cfg} {st : Bool} {batch limit : Nat} {s : Pipe} {es : List PEv} (h : s.Good c st batch limit es)
    (h1 : s.tx.Quiet) (h2 : s.rx.Quiet limit) (h3 : s.off = s.tx.wire.length) : handledItems es = StAsio.arrived c.headLen st (sentItems es) s.tx.wire.length ∧
      s.tx.wire = ((sentItems es).map (wire c.headLen)).flatten := by
  obtain ⟨tas, tes, hrun, hf, hp, hacc⟩ := h.tx
  obtain ⟨ras, res, r1, r2, r3, r4, p, r5, r6⟩ := h.rx
  have hrun' := Tx.run_trans (Tx.run_one (Tx.up_step batch)) hrun
  have hfail : failedSinceUp ([.linkUp] ++ tas) = false := by
    have hg : ∀ as : List TxAct, (∀ a ∈ as, (∀ i, a ≠ .complete i false) ∧ a ≠ .linkUp) → failedSinceUp as = false := by
      intro as h
      unfold failedSinceUp
      induction as with
      | nil => rfl
      | cons a as ih =>
        rw [List.foldl_cons]
        have ha := h a (by simp)
        have := ih (fun x hx => h x (by simp [hx]))
        cases a with
        | complete i ok => cases ok
                           · exact absurd rfl (ha.1 i)
                           · exact this
        | linkUp => exact absurd rfl ha.2
        | _ => exact this
    exact hg tas hf
  have hempty := C22_no_lost_wakeup batch _ s.tx _ hrun' h.ready hfail h1
  have hw : s.tx.unwritten = [] := by simp [Tx.unwritten, h1.2.2.1]
  have hst := h.stream
  rw [hempty, hw] at hst
  have hst : s.tx.wire = ((sentItems es).map (wire c.headLen)).flatten := by simpa [TxMsg.bytes] using hst
  obtain ⟨q1, q2⟩ := Rx.quiet_empty h.rx_inv h2 h.dlost
  have hord := C25_order limit ras s.rx res r1 r2
  rw [q1, q2] at hord
  simp only [Option.toList_none, List.append_nil] at hord
  obtain ⟨q, hq⟩ := h.arrived s.tx.wire.length (Nat.le_refl _)
  rw [h3, hq] at r5
  simp only [Prod.mk.injEq] at r5
  exact ⟨by rw [← r3, hord, r5.1], hst⟩

/-- The receive buffer of a receiver at rest is empty, so it reads. -/
theorem Rx.quiet_reading {limit : Nat} (hlim : 0 < limit) {s : Rx} (hi : s.Inv) (hq : s.Quiet limit) (hl : s.dlost = false) (hr : s.rd ≠ .off) : s.rd = .reading := by
  obtain ⟨q1, q2⟩ := Rx.quiet_empty hi hq hl
  rcases hq.2.2.2 with h | h | h
  · exact h
  · exact absurd h hr
  · have := hi.exact
    rw [Q.Exact, q1] at this
    have h2 := h.2
    simp only [Rx.available, decide_eq_false_iff_not] at h2
    simp [sumSize] at this
    omega

/-- If the path is not at rest, something can go on (other than an idle poll). -/
theorem Pipe.progress {c : Cfg} (hv : c.Valid) (nd cwf : Bool) {st : Bool} {batch limit : Nat} (hlim : 0 < limit) {s : Pipe} {es : List PEv} (h : s.Good c st batch limit es)
    (hq : ¬ (s.tx.Quiet ∧ s.rx.Quiet limit ∧ s.off = s.tx.wire.length)) :
    ∃ a s' fs, PAct.Internal a ∧ a.Honest ∧ s.step c nd cwf batch limit a = some (s', fs) ∧ s'.work < s.work := by
  by_cases h1 : s.tx.Quiet
  · by_cases h2 : s.rx.Quiet limit
    · have h3 : s.off < s.tx.wire.length := by
        have := h.off
        rcases Nat.lt_or_ge s.off s.tx.wire.length with h' | h'
        · exact h'
        · exact absurd ⟨h1, h2, by omega⟩ hq
      obtain ⟨ras, res, r1, r2, r3, r4, p, r5, r6⟩ := h.rx
      have hrd := Rx.quiet_reading hlim h.rx_inv h2 h.dlost h.rd
      obtain ⟨cap, got, want, hph, hw, hg⟩ := (unpacker_simulates c hv st cwf).reading s.conn p r6
      have hdl : ((s.tx.wire.drop s.off).take 1).length = 1 := by rw [List.length_take, List.length_drop]; omega
      obtain ⟨conn, hc, hm⟩ := (unpacker_simulates c hv st cwf).step s.conn p cap got want ((s.tx.wire.drop s.off).take 1) r6 hph
          (by intro h0; rw [h0] at hdl; simp at hdl) (by omega) (by omega)
      have hex : ∃ s' fs, s.step c nd cwf batch limit (.net 1) = some (s', fs) := by
        simp only [Pipe.step, hrd, hph]
        rw [if_pos ⟨by omega, by omega, by omega, by omega⟩, hc]
        simp only
        split
        · simp only [Rx.step, hrd, ne_eq, not_true_eq_false, if_false]
          split
          · exact ⟨_, _, rfl⟩
          · split <;> exact ⟨_, _, rfl⟩
        · exact ⟨_, _, rfl⟩
      obtain ⟨s', fs, hs⟩ := hex
      refine ⟨.net 1, s', fs, trivial, trivial, hs, ?_⟩
      rcases Pipe.step_work hv h (a := .net 1) trivial hs with hw | hw
      · exact hw
      · exact absurd hw.1 (by simp)
    · obtain ⟨a, r, res, ha, hs, hw⟩ := Rx.progress limit s.rx h.rx_inv h2
      refine ⟨.rx a, _, _, ?_, trivial, by simp only [Pipe.step, RAct.internal_healthy ha, hs, if_true]; rfl, ?_⟩
      · cases a with
        | ret ok => cases ok <;> simp_all [PAct.Internal, RAct.Internal]
        | _ => trivial
      · simp only [Pipe.work, Pipe.pend]; omega
  · obtain ⟨a, t, tes, ha, hs⟩ := Tx.progress batch s.tx h.tx_inv h1
    have hst : s.step c nd cwf batch limit (.tx a) = some ({ s with tx := t }, []) := by simp only [Pipe.step, TxAct.internal_healthy ha, hs, if_true]; rfl
    refine ⟨.tx a, _, _, trivial, trivial, hst, ?_⟩
    rcases Pipe.step_work hv h (a := .tx a) trivial hst with hw | hw
    · exact hw
    · exact absurd hw.1 (by simp)

/-- At rest nothing goes on without the sending application. -/
theorem Pipe.Good.settled {c : Cfg} (nd cwf : Bool) {st : Bool} {batch limit : Nat} (hlim : 0 < limit) {s : Pipe} {es : List PEv} (h : s.Good c st batch limit es)
    (h1 : s.tx.Quiet) (h2 : s.rx.Quiet limit) (h3 : s.off = s.tx.wire.length) : ∀ a, PAct.Internal a → s.step c nd cwf batch limit a = none := by
  have hrd := Rx.quiet_reading hlim h.rx_inv h2 h.dlost h.rd
  obtain ⟨t1, t2, t3, t4, t5, t6⟩ := h1
  obtain ⟨r1, r2, r3, _⟩ := h2
  intro a ha
  cases a with
  | send _ _ => exact absurd ha (by simp [PAct.Internal])
  | tx a =>
    simp only [Pipe.step]
    split
    · cases a <;> simp_all [TxAct.healthy, Tx.step, Tx.strand]
    · rfl
  | rx a =>
    simp only [Pipe.step]
    split
    · cases a <;> simp_all [RAct.healthy, Rx.step]
    · rfl
  | net k =>
    simp only [Pipe.step]
    split
    · rw [if_neg (by omega)]
    · rfl

theorem arrived_all (hl : Nat) (st : Bool) (items : List Item) :
    StAsio.arrived hl st items ((items.map (wire hl)).flatten.length) = expected hl st items := by
  induction items with
  | nil => rfl
  | cons b items ih =>
    simp only [List.map_cons, List.flatten_cons, List.length_append, wire_length, StAsio.arrived]
    rw [if_neg (by omega), Nat.add_sub_cancel_left, ih]
    by_cases hb : b = []
    · simp [hb, expected]
    · simp [hb, expected, seen]

theorem arrived_prefix (hl : Nat) (st : Bool) (items : List Item) (n : Nat) : StAsio.arrived hl st items n <+: expected hl st items := by
  induction items generalizing n with
  | nil => exact List.prefix_refl _
  | cons b items ih =>
    simp only [StAsio.arrived]
    split
    · exact List.nil_prefix
    · obtain ⟨t, ht⟩ := ih (n - (hl + b.length))
      refine ⟨t, ?_⟩
      rw [List.append_assoc, ht]
      by_cases hb : b = []
      · simp [hb, expected]
      · simp [hb, expected, seen]

end StAsio
