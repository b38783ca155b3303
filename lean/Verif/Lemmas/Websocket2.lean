import Verif.Lemmas.Websocket
set_option autoImplicit false
namespace StAsio

/-- An upper bound for the number of steps that go on without the applications. -/
def WsPipe.work (s : WsPipe) : Nat := 60 * s.tx.work + 40 * (s.link.length - s.off) + s.rx.work

/-- Nothing goes on. -/
def WsPipe.AtRest (limit : Nat) (s : WsPipe) : Prop := s.tx.Quiet ∧ s.rx.Quiet limit ∧ (s.off = s.link.length ∨ s.rx.rd = .off)

theorem wsWritten_length (t : Tx) (a : TxAct) : (wsWritten t a).length ≤ 1 := by
  cases a with
  | complete i ok =>
    simp only [wsWritten]
    cases t.writes[i]? <;> simp
  | _ => simp [wsWritten]

theorem WsPipe.step_work {c : Cfg} {nd : Bool} {limit : Nat} {s s' : WsPipe} {a : WsAct} {es fs : List WsEv} (h : s.Good nd limit es) (ha : a.Internal)
    (hs : s.step c nd limit a = some (s', fs)) : s'.work < s.work ∨ (a = .rx .checkTimer ∧ s' = s) := by
  cases a with
  | send _ call fits => exact absurd ha (by simp [WsAct.Internal])
  | tx a =>
    left
    simp only [WsPipe.step] at hs
    split at hs
    · next hh =>
      rw [Option.map_eq_some_iff] at hs
      obtain ⟨⟨t, tes⟩, h1, h2⟩ := hs
      cases h2
      have w1 := Tx.step_work h.tx_inv (TxAct.healthy_internal hh.2) h1
      have hl := wsWritten_length s.tx a
      simp only [WsPipe.work, List.length_append]
      omega
    · cases hs
  | rx a =>
    simp only [WsPipe.step] at hs
    split at hs
    · next hh =>
      rw [Option.map_eq_some_iff] at hs
      obtain ⟨⟨t, tes⟩, h1, h2⟩ := hs
      cases h2
      have hi : a.Internal := by
        cases a with
        | ret ok => simp only [WsAct.Internal] at ha; subst ha; trivial
        | _ => simp_all [RAct.healthy, RAct.Internal]
      rcases Rx.step_work h.rx_inv hi h1 with hw | ⟨hw1, hw2⟩
      · left
        simp only [WsPipe.work]
        omega
      · right
        rw [hw1, hw2]
        exact ⟨rfl, rfl⟩
    · cases hs
  | net =>
    left
    simp only [WsPipe.step] at hs
    split at hs
    · cases hs
    · next hc =>
      simp only [not_or, Bool.not_eq_true, ne_eq, Classical.not_not] at hc
      obtain ⟨hb, hrd⟩ := hc
      split at hs
      · cases hs
      · next m hm =>
        have hlt : s.off < s.link.length := by
          rcases Nat.lt_or_ge s.off s.link.length with h' | h'
          · exact h'
          · rw [List.getElem?_eq_none h'] at hm; cases hm
        split at hs
        · rw [Option.map_eq_some_iff] at hs
          obtain ⟨⟨t, tes⟩, h1, h2⟩ := hs
          cases h2
          have hti := Rx.step_inv h.rx_inv h1
          have hmon := hti.2
          have hwk : t.work ≤ s.rx.work + 15 := by
            simp only [Rx.step, hrd, wsParse, if_true] at h1
            simp only [ne_eq, not_true_eq_false, if_false, List.isEmpty_cons, Bool.false_eq_true] at h1
            split at h1
            · cases h1; exact absurd hti.1.bad (by simp)
            · next q' hq' =>
              cases h1
              have hit : q'.items = s.rx.buf.items ++ [s.recvBuff ++ m] := by
                simp [IdealRx.monitor, IdealRx.event, Rx.ideal] at hmon
                exact hmon.symm
              simp only [Rx.work, Rx.pcWork, hrd, RPc.work, hit, List.length_append, List.length_cons, List.length_nil]
              omega
          simp only [WsPipe.work]
          omega
        · split at hs
          · rw [Option.map_eq_some_iff] at hs
            obtain ⟨⟨t, tes⟩, h1, h2⟩ := hs
            cases h2
            simp only [Rx.step, hrd, true_or, if_true, Option.some.injEq, Prod.mk.injEq] at h1
            obtain ⟨rfl, rfl⟩ := h1
            simp only [WsPipe.work, Rx.work, Rx.pcWork, hrd, RPc.work]
            omega
          · simp only [Option.some.injEq, Prod.mk.injEq] at hs
            obtain ⟨rfl, rfl⟩ := hs
            simp only [WsPipe.work]
            omega

theorem WsPipe.run_trans {c : Cfg} {nd : Bool} {limit : Nat} {s s1 s2 : WsPipe} {as bs : List WsAct} {es fs : List WsEv}
    (h1 : WsPipe.Run c nd limit s as s1 es) (h2 : WsPipe.Run c nd limit s1 bs s2 fs) : WsPipe.Run c nd limit s (as ++ bs) s2 (es ++ fs) := by
  induction h2 with
  | nil => simpa using h1
  | snoc s2 s3 bs a fs fs' _ hs ih =>
    rw [← List.append_assoc, ← List.append_assoc]
    exact WsPipe.Run.snoc _ _ _ _ _ _ _ ih hs

theorem WsPipe.run_one {c : Cfg} {nd : Bool} {limit : Nat} {s s1 : WsPipe} {a : WsAct} {es : List WsEv} (h : s.step c nd limit a = some (s1, es)) :
    WsPipe.Run c nd limit s [a] s1 es := by
  have := WsPipe.Run.snoc _ _ _ _ _ _ _ (WsPipe.Run.nil (c := c) (nd := nd) (limit := limit) s) h
  simpa using this

theorem WsPipe.exec_run {c : Cfg} {nd : Bool} {limit : Nat} {s s' : WsPipe} {as : List WsAct} {es : List WsEv} (h : WsPipe.exec c nd limit s as = some (s', es)) :
    WsPipe.Run c nd limit s as s' es := by
  induction as generalizing s es with
  | nil => simp [WsPipe.exec] at h; obtain ⟨rfl, rfl⟩ := h; exact WsPipe.Run.nil _
  | cons a as ih =>
    simp only [WsPipe.exec, Option.bind_eq_bind] at h
    rw [Option.bind_eq_some_iff] at h
    obtain ⟨⟨s1, e1⟩, h1, h2⟩ := h
    rw [Option.bind_eq_some_iff] at h2
    obtain ⟨⟨s2, e2⟩, h2, h3⟩ := h2
    simp at h3
    obtain ⟨rfl, rfl⟩ := h3
    exact WsPipe.run_trans (WsPipe.run_one h1) (ih h2)

/-- What was read is the beginning of what was put into the send buffer. -/
theorem WsPipe.Good.read {nd : Bool} {limit : Nat} {s : WsPipe} {es : List WsEv} (h : s.Good nd limit es) : s.link.take s.off = (wsPieces es).take s.off := by
  rw [← h.frames, List.append_assoc, List.take_append_of_le_length h.off]

theorem WsPipe.Good.mem {nd : Bool} {limit : Nat} {s : WsPipe} {es : List WsEv} (h : s.Good nd limit es) {m : Bytes} (hm : m ∈ s.link.take s.off) : m ∈ wsPieces es := by
  rw [h.read] at hm
  exact List.mem_of_mem_take hm

/-- At rest, everything in front of the first empty message was handled. -/
theorem WsPipe.Good.rest {nd : Bool} {limit : Nat} {s : WsPipe} {es : List WsEv} (h : s.Good nd limit es) (hq : s.AtRest limit) :
    wsHandled es = upToEmpty (wsPieces es) := by
  obtain ⟨tas, tes, hrun, hf⟩ := h.tx
  obtain ⟨ras, res, r1, r2, r3, r4⟩ := h.rx
  obtain ⟨h1, h2, h3⟩ := hq
  have hrun' := Tx.run_trans (Tx.run_one (Tx.up_step wsBatch)) hrun
  have hfail : failedSinceUp ([.linkUp] ++ tas) = false := by
    have hg : ∀ as : List TxAct, (∀ a ∈ as, (∀ i, a ≠ .complete i false) ∧ a ≠ .linkUp) → failedSinceUp as = false := by
      intro as h
      unfold failedSinceUp
      induction as with
      | nil => rfl
      | cons a as ih =>
        rw [List.foldl_cons]
        have ha := h a (by simp)
        have := ih (fun x hx => h x (by simp [hx]))
        cases a with
        | complete i ok => cases ok
                           · exact absurd rfl (ha.1 i)
                           · exact this
        | linkUp => exact absurd rfl ha.2
        | _ => exact this
    exact hg tas hf
  have hempty := C22_no_lost_wakeup wsBatch _ s.tx _ hrun' h.ready hfail h1
  have hw : s.tx.inFlight = [] := by simp [Tx.inFlight, h1.2.2.1]
  have hfr := h.frames
  rw [hempty, hw] at hfr
  simp only [List.append_nil, List.map_nil] at hfr
  obtain ⟨q1, q2⟩ := Rx.quiet_empty h.rx_inv h2 h.dlost
  have hord := C25_order limit ras s.rx res r1 r2
  rw [q1, q2] at hord
  simp only [Option.toList_none, List.append_nil] at hord
  rw [← r3, hord, r4, ← hfr]
  rcases h3 with h3 | h3
  · rw [h3, List.take_length]
  · have hin := h.dead (Or.inl h3)
    conv => rhs; rw [← List.take_append_drop s.off s.link]
    rw [upToEmpty_cut _ hin]

/-- If the path is not at rest, something can go on (other than an idle poll). -/
theorem WsPipe.progress (c : Cfg) (nd : Bool) {limit : Nat} (hlim : 0 < limit) {s : WsPipe} {es : List WsEv} (h : s.Good nd limit es) (hb : s.bad = false)
    (hq : ¬ s.AtRest limit) : ∃ a s' fs, WsAct.Internal a ∧ a.Honest ∧ s.step c nd limit a = some (s', fs) ∧ s'.work < s.work := by
  by_cases h1 : s.tx.Quiet
  · by_cases h2 : s.rx.Quiet limit
    · have h3 : s.off < s.link.length ∧ s.rx.rd ≠ .off := by
        have := h.off
        rcases Classical.em (s.rx.rd = .off) with h0 | h0
        · exact absurd ⟨h1, h2, Or.inr h0⟩ hq
        · refine ⟨?_, h0⟩
          rcases Nat.lt_or_ge s.off s.link.length with h' | h'
          · exact h'
          · exact absurd ⟨h1, h2, Or.inl (by omega)⟩ hq
      have hrd := Rx.quiet_reading hlim h.rx_inv h2 h.dlost h3.2
      have hex : ∃ s' fs, s.step c nd limit .net = some (s', fs) := by
        simp only [WsPipe.step, hrd, hb, List.getElem?_eq_getElem h3.1]
        simp only [Bool.false_eq_true, ne_eq, not_true_eq_false, or_self, if_false]
        split
        · simp only [Rx.step, hrd, ne_eq, not_true_eq_false, if_false]
          split
          · exact ⟨_, _, rfl⟩
          · split <;> exact ⟨_, _, rfl⟩
        · split
          · simp only [Rx.step, hrd, true_or, if_true]; exact ⟨_, _, rfl⟩
          · exact ⟨_, _, rfl⟩
      obtain ⟨s', fs, hs⟩ := hex
      refine ⟨.net, s', fs, trivial, trivial, hs, ?_⟩
      rcases WsPipe.step_work h (a := .net) trivial hs with hw | hw
      · exact hw
      · exact absurd hw.1 (by simp)
    · obtain ⟨a, r, res, ha, hs, hw⟩ := Rx.progress limit s.rx h.rx_inv h2
      refine ⟨.rx a, _, _, ?_, trivial, by simp only [WsPipe.step, RAct.internal_healthy ha, hs, hb, and_self, if_true]; rfl, ?_⟩
      · cases a with
        | ret ok => cases ok <;> simp_all [WsAct.Internal, RAct.Internal]
        | _ => trivial
      · simp only [WsPipe.work]; omega
  · obtain ⟨a, t, tes, ha, hs⟩ := Tx.progress wsBatch s.tx h.tx_inv h1
    have hst : s.step c nd limit (.tx a) = some ({ s with tx := t, link := s.link ++ wsWritten s.tx a }, []) := by
      simp only [WsPipe.step, TxAct.internal_healthy ha, hs, hb, and_self, if_true]; rfl
    refine ⟨.tx a, _, _, trivial, trivial, hst, ?_⟩
    rcases WsPipe.step_work h (a := .tx a) trivial hst with hw | hw
    · exact hw
    · exact absurd hw.1 (by simp)

/-- No empty message, or no assertions: the process does not end. -/
theorem WsPipe.Good.not_bad {nd : Bool} {limit : Nat} {s : WsPipe} {es : List WsEv} (h : s.Good nd limit es) (hn : nd = true ∨ [] ∉ wsPieces es) : s.bad = false := by
  cases hb : s.bad with
  | false => rfl
  | true =>
    rcases hn with hn | hn
    · have := h.how.1 hb; rw [hn] at this; cases this
    · exact absurd (h.mem (h.dead (Or.inr hb))) hn

end StAsio
