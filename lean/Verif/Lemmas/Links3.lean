import Verif.Lemmas.Links2
set_option autoImplicit false
namespace StAsio

/-- Ghosts for a user that puts failed messages back: the messages reported as sent, being written, waiting; where (in the list of accepted messages) each link
begins; where the current link begins. -/
structure Links.Rel2 (c : Cfg) (s : Links) (es : List LinksEv) (done flight waiting : List Item) (cuts : List Nat) (st : Nat) : Prop where
  inv : s.tx.Inv
  bad : s.bad = false
  all : lSent es = done ++ flight ++ waiting
  queue : s.tx.q.items = waiting.map (whole c.headLen)
  sending : s.tx.sendingMsgs = flight.map (whole c.headLen)
  first : cuts[0]? = some 0
  len : cuts.length = s.past.length + 1
  last : cuts[s.past.length]? = some st
  le : st ≤ done.length
  past : ∀ (k a b : Nat) (w : Bytes), cuts[k]? = some a → cuts[k + 1]? = some b → s.past[k]? = some w →
    a ≤ b ∧ b ≤ done.length ∧ streamOf c.headLen (((lSent es).take b).drop a) <+: w ∧ w <+: streamOf c.headLen ((lSent es).drop a)
  written : lWritten es = done.map (wire c.headLen)
  alive : s.dead = false → s.tx.wire ++ s.tx.unwritten = streamOf c.headLen (done.drop st ++ flight) ∧ ∀ d ∈ s.tx.dones, d.ok = true
  dead : s.dead = true → streamOf c.headLen (done.drop st) <+: s.tx.wire ∧ s.tx.wire <+: streamOf c.headLen ((lSent es).drop st) ∧
    (∀ w ∈ s.tx.writes, w.done = 0) ∧ ∀ d ∈ s.tx.dones, d.ok = false
  down : s.up = false → s.past = [] ∧ done = [] ∧ flight = [] ∧ s.dead = false ∧ s.tx.ready = false ∧ s.tx.atFlag = 0 ∧ s.tx.posted = 0 ∧ s.tx.pc = .idle
  small : ∀ b ∈ lSent es, c.headLen + b.length ≤ c.bufSize ∧ c.headLen + b.length < 256 ^ c.headLen

theorem Links.init_rel2 (c : Cfg) : Links.init.Rel2 c [] [] [] [] [0] 0 where
  inv := Tx.init_inv
  bad := rfl
  all := rfl
  queue := rfl
  sending := rfl
  first := rfl
  len := rfl
  last := rfl
  le := Nat.le_refl _
  past := by intro k a b w _ _ h; simp [Links.init] at h
  written := rfl
  alive := fun _ => ⟨rfl, by simp [Links.init, Tx.init]⟩
  dead := by intro h; simp [Links.init] at h
  down := fun _ => ⟨rfl, rfl, rfl, rfl, rfl, rfl, rfl, rfl⟩
  small := by simp [lSent]

theorem Links.Rel2.same {c : Cfg} {s s' : Links} {es : List LinksEv} {done flight waiting : List Item} {cuts : List Nat} {st : Nat}
    (h : s.Rel2 c es done flight waiting cuts st) (hi : s'.tx.Inv) (h1 : s'.tx.q.items = s.tx.q.items) (h2 : s'.tx.sendingMsgs = s.tx.sendingMsgs)
    (h3 : s'.tx.writes = s.tx.writes) (h4 : s'.tx.dones = s.tx.dones) (h5 : s'.tx.wire = s.tx.wire) (h6 : s'.dead = s.dead) (h7 : s'.up = s.up)
    (h8 : s'.past = s.past) (h9 : s'.bad = s.bad)
    (hd : s.tx.ready = false → s.tx.atFlag = 0 → s.tx.posted = 0 → s.tx.pc = .idle → s.tx.q.items = s'.tx.q.items →
      s'.tx.ready = false ∧ s'.tx.atFlag = 0 ∧ s'.tx.posted = 0 ∧ s'.tx.pc = .idle) :
    s'.Rel2 c (es ++ []) done flight waiting cuts st := by
  rw [List.append_nil]
  have hu : s'.tx.unwritten = s.tx.unwritten := by simp [Tx.unwritten, h3]
  refine ⟨hi, by rw [h9, h.bad], h.all, by rw [h1, h.queue], by rw [h2, h.sending], h.first, by rw [h8, h.len], by rw [h8, h.last], h.le, by rw [h8]; exact h.past, h.written, ?_, ?_, ?_, h.small⟩
  · rw [h6, h5, hu, h4]; exact h.alive
  · rw [h6, h5, h4, h3]; exact h.dead
  · rw [h7, h8, h6]
    intro hup
    obtain ⟨d1, d2, d3, d4, d5, d6, d7, d8⟩ := h.down hup
    exact ⟨d1, d2, d3, d4, hd d5 d6 d7 d8 h1.symm⟩

theorem Tx.sendListFront {s : Tx} (hi : s.Inv) (ms : List TxMsg) :
    ∃ q, s.sendList ms true = ({ s with q, atReady := s.atReady + 1 }, [.accept ms true]) ∧ q.items = ms ++ s.q.items ∧ (s.sendList ms true).1.Inv := by
  have hs := Tx.step_inv (batch := 0) (a := .sendList ms true) hi (s' := (s.sendList ms true).1) (es := (s.sendList ms true).2) rfl
  have hb := hs.1.bad
  have hm := hs.2
  have hfin := hs.1
  simp only [Tx.sendList, if_true] at *
  split
  · next h => simp [h] at hb
  · next q h =>
    simp only [h, IdealTx.monitor, IdealTx.event, Tx.ideal] at hm
    rw [h] at hfin
    refine ⟨q, rfl, ?_, hfin⟩
    simp at hm
    exact hm.symm

theorem Tx.resend_one (t : Tx) (ms : List TxMsg) : t.resend [.sendError ms] = (t.sendList ms true).1 := rfl

/-- Nothing failed: nothing is put back. -/
theorem Tx.resend_none (t : Tx) (es : List TxEv) (h : ∀ ms, TxEv.sendError ms ∉ es) : t.resend es = t := by
  unfold Tx.resend
  induction es with
  | nil => rfl
  | cons e es ih =>
    rw [List.foldl_cons]
    cases e with
    | sendError ms => exact absurd (by simp) (h ms)
    | _ => exact ih (fun ms hm => h ms (by simp [hm]))

theorem Tx.resend_quiet {batch : Nat} {s t : Tx} {a : TxAct} {es : List TxEv} (hs : s.step batch a = some (t, es)) (ha : ∀ i, a ≠ .handler i) : t.resend es = t := by
  refine Tx.resend_none t es ?_
  intro ms hm
  have hp : ∀ (l : List TxMsg) (r : SyncRes), TxEv.sendError ms ∉ setPromises l r := by
    intro l r h
    simp [setPromises] at h
  cases a with
  | handler i => exact ha i rfl
  | send m prior fits =>
    simp only [Tx.step, Tx.send, Option.some.injEq] at hs
    (repeat' split at hs) <;> (cases hs; simp at hm)
  | sendList l prior =>
    simp only [Tx.step, Tx.sendList, Option.some.injEq] at hs
    (repeat' split at hs) <;> (cases hs; simp at hm)
  | transfer i k =>
    simp only [Tx.step, Option.bind_eq_bind] at hs
    rw [Option.bind_eq_some_iff] at hs
    obtain ⟨w, _, hs⟩ := hs
    split at hs <;> (cases hs; try simp at hm)
  | complete i ok =>
    simp only [Tx.step, Option.bind_eq_bind] at hs
    rw [Option.bind_eq_some_iff] at hs
    obtain ⟨w, _, hs⟩ := hs
    split at hs <;> (cases hs; try simp at hm)
  | strand =>
    simp only [Tx.step, Tx.strand] at hs
    (repeat' split at hs) <;> (cases hs; try simp at hm)
  | onClose =>
    simp only [Tx.step, Tx.onClose] at hs
    split at hs <;> (cases hs; try exact hp _ _ hm)
  | pop =>
    simp only [Tx.step] at hs
    split at hs
    · cases hs; simp at hm
    · cases hs
      rcases List.mem_append.mp hm with hm | hm
      · exact hp _ _ hm
      · simp at hm
  | popAll =>
    simp only [Tx.step] at hs
    cases hs
    rcases List.mem_append.mp hm with hm | hm
    · exact hp _ _ hm
    · simp at hm
  | shrink n => simp only [Tx.step] at hs; cases hs; simp at hm
  | linkDown => simp only [Tx.step] at hs; cases hs; simp at hm
  | _ => simp only [Tx.step] at hs; split at hs <;> (cases hs; try simp at hm)

theorem Links.tx_rel2 {c : Cfg} {batch : Nat} {s s' : Links} {es fs : List LinksEv} {nd : Bool} {a : TxAct} {done flight waiting : List Item} {cuts : List Nat} {st : Nat}
    (h : s.Rel2 c es done flight waiting cuts st) (hs : s.step c nd true batch (.tx a) = some (s', fs)) :
    ∃ done flight waiting cuts st, s'.Rel2 c (es ++ fs) done flight waiting cuts st := by
  have hl0 := c.headLen_pos
  simp only [Links.step] at hs
  split at hs
  · cases hs
  next hlk =>
  split at hs
  · cases hs
  next hdt =>
  rw [Option.map_eq_some_iff] at hs
  obtain ⟨⟨t, tes⟩, ht, hs⟩ := hs
  simp only [if_true, Prod.mk.injEq] at hs
  obtain ⟨rfl, rfl⟩ := hs
  have hi := (Tx.step_inv h.inv ht).1
  have hres := Tx.resend_quiet ht
  have hown := h.inv.owner
  have hle : s.tx.writes.length + s.tx.dones.length ≤ 1 := by
    have : (if s.tx.sending then 1 else 0) ≤ 1 := by split <;> omega
    omega
  cases a with
  | loadReady =>
    rw [hres (by simp)]
    clear hres
    simp only [Tx.step] at ht
    split at ht
    · cases ht
    · cases ht
      refine ⟨done, flight, waiting, cuts, st, h.same hi rfl rfl rfl rfl rfl rfl (by simp) (by simp) rfl ?_⟩
      intro d5 d6 d7 d8 _
      simp [d5, d6, d7, d8]
  | loadFlag =>
    rw [hres (by simp)]
    clear hres
    simp only [Tx.step] at ht
    split at ht
    · cases ht
    · next hne =>
      cases ht
      refine ⟨done, flight, waiting, cuts, st, h.same hi rfl rfl rfl rfl rfl rfl (by simp) (by simp) rfl ?_⟩
      intro d5 d6 d7 d8 _
      exact absurd d6 hne
  | runPosted =>
    rw [hres (by simp)]
    clear hres
    simp only [Tx.step] at ht
    split at ht
    · cases ht
    · next hne =>
      cases ht
      refine ⟨done, flight, waiting, cuts, st, h.same hi rfl rfl rfl rfl rfl rfl (by simp) (by simp) rfl ?_⟩
      intro d5 d6 d7 d8 _
      exact absurd (Or.inl d7) hne
  | linkDown =>
    rw [hres (by simp)]
    clear hres
    simp only [Tx.step] at ht
    cases ht
    refine ⟨done, flight, waiting, cuts, st, h.same hi rfl rfl rfl rfl rfl rfl (by simp) (by simp) rfl ?_⟩
    intro d5 d6 d7 d8 _
    exact ⟨rfl, d6, d7, d8⟩
  | onClose =>
    rw [hres (by simp)]
    clear hres
    simp only [Tx.step] at ht
    split at ht
    · cases ht
    · cases ht
      rw [Tx.onClose, h.sending, promises_whole]
      exact ⟨done, flight, waiting, cuts, st, h.same hi rfl rfl rfl rfl rfl rfl (by simp) (by simp) rfl (fun d5 d6 d7 d8 _ => ⟨d5, d6, d7, d8⟩)⟩
  | strand =>
    rw [hres (by simp)]
    clear hres
    simp only [Tx.step, Tx.strand] at ht
    split at ht
    · cases ht
    · next hpc =>
      split at ht <;>
      · cases ht
        refine ⟨done, flight, waiting, cuts, st, h.same hi rfl rfl rfl rfl rfl rfl (by simp) (by simp) rfl ?_⟩
        intro d5 d6 d7 d8 _
        rw [d8] at hpc; cases hpc
    · next hpc =>
      have hno : s.tx.writes = [] ∧ s.tx.dones = [] := by
        rw [hpc] at hown
        have : (if s.tx.sending then 1 else 0) ≤ 1 := by split <;> omega
        simp only [TxPc.owner] at hown
        exact ⟨List.length_eq_zero_iff.mp (by omega), List.length_eq_zero_iff.mp (by omega)⟩
      have hsm := h.inv.none hno.1 hno.2
      have hfl : flight = [] := by
        have := h.sending
        rw [hsm] at this
        simpa using this.symm
      subst hfl
      obtain ⟨m, e1, e2, e3⟩ := moveOutBytes_spec s.tx.q h.inv.exact s.tx.sendingMsgs batch
      rw [hsm, List.nil_append] at e1
      split at ht
      · next hemp =>
        cases ht
        rw [hsm] at hemp
        have hm : m = [] := by rw [← e1]; simpa using hemp
        refine ⟨done, [], waiting, cuts, st, h.same hi ?_ (by simp only; rw [hsm, e1, hm]) rfl rfl rfl rfl (by simp) (by simp) rfl ?_⟩
        · rw [hm] at e2; simpa using e2.symm
        · intro d5 d6 d7 d8 _
          rw [d8] at hpc; cases hpc
      · next hemp =>
        cases ht
        rw [h.queue, List.map_eq_append_iff] at e2
        obtain ⟨f, r, rfl, e4, e5⟩ := e2
        refine ⟨done, f, r, cuts, st, hi, h.bad, ?_, e5.symm, ?_, h.first, by simpa using h.len, by simpa using h.last, h.le, ?_, ?_, ?_, ?_, ?_, ?_⟩
        · simp only [List.filterMap_cons, txLinksEv, List.filterMap_nil, List.append_nil]
          rw [h.all]; simp
        · simp only; rw [hsm, e1, e4]
        · rw [List.filterMap_cons]; simpa only [txLinksEv, List.filterMap_nil, List.append_nil, reduceCtorEq, if_false] using h.past
        · rw [List.filterMap_cons]; simpa only [txLinksEv, List.filterMap_nil, List.append_nil] using h.written
        · intro hd
          obtain ⟨a2, a3⟩ := h.alive hd
          refine ⟨?_, a3⟩
          simp only [Tx.unwritten, hno.1, List.nil_append, List.map_cons, List.map_nil, List.flatten_cons, List.flatten_nil, List.append_nil, List.drop_zero] at a2 ⊢
          rw [a2, hsm, e1, ← e4, bytes_whole, ← streamOf_append]
        · intro hd
          obtain ⟨a1, a2, a3, a4⟩ := h.dead hd
          refine ⟨a1, ?_, ?_, a4⟩
          · rw [List.filterMap_cons]; simpa only [txLinksEv, List.filterMap_nil, List.append_nil] using a2
          · simp [hno.1]
        · intro hup
          have := (h.down (by simpa using hup)).2.2.2.2.2.2.2
          rw [hpc] at this; cases this
        · rw [List.filterMap_cons]; simpa only [txLinksEv, List.filterMap_nil, List.append_nil] using h.small
    · next hpc =>
      cases ht
      refine ⟨done, flight, waiting, cuts, st, h.same hi rfl rfl rfl rfl rfl rfl (by simp) (by simp) rfl ?_⟩
      intro d5 d6 d7 d8 _
      rw [d8] at hpc; cases hpc
    · next hpc =>
      cases ht
      refine ⟨done, flight, waiting, cuts, st, h.same hi rfl rfl rfl rfl rfl rfl (by simp) (by simp) rfl ?_⟩
      intro d5 d6 d7 d8 _
      rw [d8] at hpc; cases hpc
    · next hpc =>
      cases ht
      refine ⟨done, flight, waiting, cuts, st, h.same hi rfl rfl rfl rfl rfl rfl (by simp) (by simp) rfl ?_⟩
      intro d5 d6 d7 d8 _
      rw [d8] at hpc; cases hpc
  | transfer i k =>
    rw [hres (by simp)]
    clear hres
    have hdead : s.dead = false := by simpa [TxAct.isTransfer] using hdt
    have hw := Tx.step_wire h.inv ht ⟨by simp, by simp⟩
    simp only [Tx.step, Option.bind_eq_bind] at ht
    rw [Option.bind_eq_some_iff] at ht
    obtain ⟨w, h1, ht⟩ := ht
    split at ht
    · cases ht
    · cases ht
      refine ⟨done, flight, waiting, cuts, st, hi, h.bad, by simpa using h.all, h.queue, h.sending, h.first, by simpa using h.len, by simpa using h.last, h.le, by simpa using h.past, by simpa using h.written, ?_, ?_, ?_, by simpa using h.small⟩
      · intro hd
        obtain ⟨a2, a3⟩ := h.alive hd
        refine ⟨?_, a3⟩
        rw [← a2]
        simpa [handedMsgs, TxMsg.bytes] using hw
      · intro hd; simp only [Links.deadAfter] at hd; rw [hdead] at hd; cases hd
      · intro hup
        obtain ⟨d1, d2, d3, d4, d5, d6, d7, d8⟩ := h.down (by simpa using hup)
        exact ⟨by simpa using d1, d2, d3, d4, d5, d6, d7, d8⟩
  | complete i ok =>
    rw [hres (by simp)]
    clear hres
    simp only [Tx.step, Option.bind_eq_bind] at ht
    rw [Option.bind_eq_some_iff] at ht
    obtain ⟨w, h1, ht⟩ := ht
    split at ht
    · cases ht
    · next hok =>
      cases ht
      obtain ⟨hw1, rfl⟩ := length_one_eq (by omega) h1
      have hd0 : s.tx.dones = [] := by rw [hw1, List.length_singleton] at hle; exact List.length_eq_zero_iff.mp (by omega)
      obtain ⟨b1, b2, b3⟩ := h.inv.wbufs w (by simp [hw1])
      have hfl : flight ≠ [] := by
        intro hc
        exact h.inv.some (Or.inl (by simp [hw1])) (by rw [h.sending, hc]; rfl)
      refine ⟨done, flight, waiting, cuts, st, hi, h.bad, by simpa using h.all, h.queue, h.sending, h.first, by simpa using h.len, by simpa using h.last, h.le, by simpa using h.past, by simpa using h.written, ?_, ?_, ?_, by simpa using h.small⟩
      · intro hd
        cases ok with
        | false => simp [Links.deadAfter] at hd
        | true =>
          obtain ⟨a2, a3⟩ := h.alive hd
          refine ⟨?_, by simp [hd0]⟩
          rw [← a2]
          simp at hok
          simp [Tx.unwritten, hw1, hok]
      · intro hd
        cases hds : s.dead with
        | true =>
          obtain ⟨a1, a2, a3, a4⟩ := h.dead hds
          refine ⟨a1, by simpa using a2, by simp [hw1], ?_⟩
          cases ok with
          | false => simp [hd0]
          | true =>
            simp at hok
            rw [a3 w (by simp [hw1]), b1, h.sending, bytes_whole] at hok
            have := streamOf_ne hl0 hfl
            omega
        | false =>
          cases ok with
          | true => simp [Links.deadAfter, hds] at hd
          | false =>
            obtain ⟨a2, a3⟩ := h.alive hds
            refine ⟨?_, ?_, by simp [hw1], by simp [hd0]⟩
            · have e1 : s.tx.unwritten = (TxMsg.bytes w.bufs).drop w.done := by simp [Tx.unwritten, hw1]
              have e2 : TxMsg.bytes w.bufs = streamOf c.headLen flight := by rw [b1, h.sending, bytes_whole]
              rw [e1, e2, streamOf_append] at a2
              have e3 : (streamOf c.headLen flight).length = w.done + ((streamOf c.headLen flight).drop w.done).length := by
                rw [e2] at b2; simp; omega
              have hlen := congrArg List.length a2
              simp only [List.length_append] at hlen
              have hle2 : (streamOf c.headLen (done.drop st)).length ≤ s.tx.wire.length := by omega
              exact List.prefix_of_prefix_length_le (List.prefix_append _ _) ⟨_, a2⟩ hle2
            · have e1 : s.tx.wire <+: streamOf c.headLen (done.drop st ++ flight) := ⟨_, a2⟩
              refine e1.trans ?_
              simp only [List.filterMap_nil, List.append_nil]
              rw [h.all, List.append_assoc, List.drop_append_of_le_length h.le, ← List.append_assoc, streamOf_append c.headLen (done.drop st ++ flight)]
              exact List.prefix_append _ _
      · intro hup
        have := (h.down (by simpa using hup)).2.2.1
        exact absurd this hfl
  | handler i =>
    simp only [Tx.step, Option.bind_eq_bind] at ht
    rw [Option.bind_eq_some_iff] at ht
    obtain ⟨d, h1, ht⟩ := ht
    split at ht
    · cases ht
    · next hpc =>
      obtain ⟨hd1, rfl⟩ := length_one_eq (by omega) h1
      have hw0 : s.tx.writes = [] := by rw [hd1, List.length_singleton] at hle; exact List.length_eq_zero_iff.mp (by omega)
      have hfl : flight ≠ [] := by
        intro hc
        exact h.inv.some (Or.inr (by simp [hd1])) (by rw [h.sending, hc]; rfl)
      simp only [Tx.handler, h.sending, promises_whole, List.nil_append, Option.some.injEq] at ht
      cases hdk : d.ok with
      | true =>
        have hds : s.dead = false := by
          cases hds : s.dead with
          | false => rfl
          | true => have := (h.dead hds).2.2.2 d (by simp [hd1]); rw [hdk] at this; cases this
        obtain ⟨a2, a3⟩ := h.alive hds
        rw [hdk] at ht
        simp only [if_true] at ht
        cases ht
        rw [Tx.resend_none _ _ (by simp)]
        refine ⟨done ++ flight, [], waiting, cuts, st, hi, h.bad, ?_, h.queue, rfl, h.first, by simpa using h.len, by simpa using h.last, by have := h.le; simp; omega, ?_, ?_, ?_, ?_, ?_, ?_⟩
        · rw [List.filterMap_cons]; simp only [txLinksEv, List.filterMap_nil, lSent_append, lSent, List.append_nil]; rw [h.all]
        · intro k a b w ha hb hw
          rw [List.filterMap_cons]; simp only [txLinksEv, List.filterMap_nil, lSent_append, lSent, List.append_nil]
          obtain ⟨q1, q2, q3⟩ := h.past k a b w ha hb (by simpa using hw)
          exact ⟨q1, by simp; omega, q3⟩
        · rw [List.filterMap_cons]; simp only [txLinksEv, List.filterMap_nil, lWritten_append, lWritten, List.append_nil, data_whole]; rw [h.written]; simp
        · intro _
          refine ⟨?_, by simp [hd1]⟩
          rw [List.drop_append_of_le_length h.le]
          simpa [Tx.unwritten, hw0] using a2
        · intro hd; simp only [Links.deadAfter] at hd; rw [hds] at hd; cases hd
        · intro hup; exact absurd (h.down (by simpa using hup)).2.2.1 hfl
        · simpa [txLinksEv, lSent_append, lSent] using h.small
      | false =>
        have hds : s.dead = true := by
          cases hds : s.dead with
          | true => rfl
          | false => have := (h.alive hds).2 d (by simp [hd1]); rw [hdk] at this; cases this
        obtain ⟨a1, a2, a3, a4⟩ := h.dead hds
        rw [hdk] at ht
        simp only [Bool.false_eq_true, if_false] at ht
        cases ht
        obtain ⟨q, e1, e2, hi2⟩ := Tx.sendListFront hi (flight.map (whole c.headLen))
        rw [Tx.resend_one]
        rw [e1] at hi2 ⊢
        refine ⟨done, [], flight ++ waiting, cuts, st, hi2, h.bad, ?_, ?_, rfl, h.first, by simpa using h.len, by simpa using h.last, h.le, ?_, ?_, ?_, ?_, ?_, ?_⟩
        · rw [List.filterMap_cons]; simp only [txLinksEv, List.filterMap_nil, lSent_append, lSent, List.append_nil]; rw [h.all]; simp
        · simp only; rw [e2]; simp [h.queue]
        · intro k a b w ha hb hw
          rw [List.filterMap_cons]; simp only [txLinksEv, List.filterMap_nil, lSent_append, lSent, List.append_nil]
          exact h.past k a b w ha hb (by simpa using hw)
        · rw [List.filterMap_cons]; simp only [txLinksEv, List.filterMap_nil, lWritten_append, lWritten, List.append_nil]; exact h.written
        · intro hd; simp only [Links.deadAfter] at hd; rw [hds] at hd; cases hd
        · intro _
          rw [List.filterMap_cons]; simp only [txLinksEv, List.filterMap_nil, lSent_append, lSent, List.append_nil]
          exact ⟨a1, a2, by simp [hw0], by simp [hd1]⟩
        · intro hup; exact absurd (h.down (by simpa using hup)).2.2.1 hfl
        · simpa [txLinksEv, lSent_append, lSent] using h.small
  | linkUp =>
    rw [hres (by simp)]
    clear hres
    simp only [Tx.step] at ht
    split at ht
    · cases ht
    · next hg =>
      have hna := noAsync_true (s := s.tx) (by simpa using fun hf => hg (Or.inr hf))
      cases ht
      have hsm := h.inv.none hna.2.2.1 hna.2.2.2
      have hfl : flight = [] := by
        have := h.sending
        rw [hsm] at this
        simpa using this.symm
      subst hfl
      have hun : s.tx.unwritten = [] := by simp [Tx.unwritten, hna.2.2.1]
      cases hup : s.up with
      | false =>
        obtain ⟨d1, d2, d3, d4, d5, d6, d7, d8⟩ := h.down hup
        have hst : st = 0 := by have := h.le; rw [d2] at this; simpa using this
        subst d2
        subst hst
        refine ⟨[], [], waiting, cuts, 0, hi, h.bad, by simpa using h.all, h.queue, h.sending, h.first, by simpa [Links.streams, hup] using h.len, by simpa [Links.streams, hup] using h.last, Nat.le_refl _, ?_, by simpa using h.written, ?_, ?_, ?_, by simpa using h.small⟩
        · intro k a b w _ _ hw; simp [Links.streams, hup, d1] at hw
        · intro _; exact ⟨by simp [Tx.unwritten, hna.2.2.1, streamOf], by simp [hna.2.2.2]⟩
        · intro hd; simp [Links.deadAfter] at hd
        · intro hu; simp at hu
      | true =>
        have hcur : streamOf c.headLen (done.drop st) <+: s.tx.wire ∧ s.tx.wire <+: streamOf c.headLen ((lSent es).drop st) := by
          cases hds : s.dead with
          | false =>
            obtain ⟨a2, a3⟩ := h.alive hds
            rw [hun, List.append_nil, List.append_nil] at a2
            rw [a2]
            refine ⟨List.prefix_refl _, ?_⟩
            rw [h.all, List.append_assoc, List.drop_append_of_le_length h.le, streamOf_append]
            exact List.prefix_append _ _
          | true => exact ⟨(h.dead hds).1, (h.dead hds).2.1⟩
        refine ⟨done, [], waiting, cuts ++ [done.length], done.length, hi, h.bad, by simpa using h.all, h.queue, h.sending, ?_, by simp [Links.streams, hup, h.len], ?_, Nat.le_refl _, ?_, by simpa using h.written, ?_, ?_, ?_, by simpa using h.small⟩
        · rw [List.getElem?_append_left (by rw [h.len]; omega)]; exact h.first
        · simp [Links.streams, hup, ← h.len]
        · intro k a b w ha hb hw
          simp only [if_true, Links.streams, hup, List.filterMap_nil, List.append_nil] at hw ⊢
          have hk : k < (s.past ++ [s.tx.wire]).length := (List.getElem?_eq_some_iff.mp hw).1
          simp only [List.length_append, List.length_singleton] at hk
          rw [List.getElem?_append_left (by rw [h.len]; omega)] at ha
          rcases append_snoc_len hw with hw | ⟨rfl, rfl⟩
          · have hk2 : k < s.past.length := (List.getElem?_eq_some_iff.mp hw).1
            rw [List.getElem?_append_left (by rw [h.len]; omega)] at hb
            exact h.past k a b w ha hb hw
          · rw [h.last] at ha
            cases ha
            rw [← h.len] at hb
            simp at hb
            subst hb
            refine ⟨h.le, Nat.le_refl _, ?_, hcur.2⟩
            rw [h.all, List.append_assoc, List.take_left']
            · exact hcur.1
            · rfl
        · intro _; exact ⟨by simp [Tx.unwritten, hna.2.2.1, streamOf], by simp [hna.2.2.2]⟩
        · intro hd; simp [Links.deadAfter] at hd
        · intro hu; simp at hu
  | _ => simp [TxAct.linky] at hlk

end StAsio
