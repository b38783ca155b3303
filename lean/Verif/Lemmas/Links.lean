import Verif.Spec.Links
import Verif.Lemmas.EndToEnd
set_option autoImplicit false
namespace StAsio

theorem lSent_append (a b : List LinksEv) : lSent (a ++ b) = lSent a ++ lSent b := by
  induction a with
  | nil => rfl
  | cons e a ih => cases e <;> simp [lSent, ih]

theorem lWritten_append (a b : List LinksEv) : lWritten (a ++ b) = lWritten a ++ lWritten b := by
  induction a with
  | nil => rfl
  | cons e a ih => cases e <;> simp [lWritten, ih]

theorem lFailed_append (a b : List LinksEv) : lFailed (a ++ b) = lFailed a ++ lFailed b := by
  induction a with
  | nil => rfl
  | cons e a ih => cases e <;> simp [lFailed, ih]

theorem streamOf_append (hl : Nat) (a b : List Item) : streamOf hl (a ++ b) = streamOf hl a ++ streamOf hl b := by simp [streamOf]

/-- The queue item of a whole message. -/
def whole (hl : Nat) (b : Item) : TxMsg := ⟨wire hl b, none⟩

theorem bytes_whole (hl : Nat) (l : List Item) : TxMsg.bytes (l.map (whole hl)) = streamOf hl l := by
  simp [TxMsg.bytes, streamOf, whole, Function.comp_def]

theorem data_whole (hl : Nat) (l : List Item) : (l.map (whole hl)).map TxMsg.data = l.map (wire hl) := by
  simp [whole, Function.comp_def]

theorem promises_whole (hl : Nat) (l : List Item) (r : SyncRes) : setPromises (l.map (whole hl)) r = [] := by
  simp [setPromises, whole]

theorem streamOf_ne {hl : Nat} (h0 : 0 < hl) {l : List Item} (h : l ≠ []) : 0 < (streamOf hl l).length := by
  cases l with
  | nil => exact absurd rfl h
  | cons b l => simp only [streamOf, List.map_cons, List.flatten_cons, wire, List.length_append, be_length]; omega

/-- Ghosts: what happened on the previous links, on the current one, what is being written and what waits. -/
structure Links.Rel (c : Cfg) (s : Links) (es : List LinksEv) (ps : List LinkPart) (p : LinkPart) (flight waiting : List Item) : Prop where
  inv : s.tx.Inv
  bad : s.bad = false
  all : lSent es = (ps.map (fun p => p.written ++ p.failed)).flatten ++ (p.written ++ p.failed) ++ flight ++ waiting
  queue : s.tx.q.items = waiting.map (whole c.headLen)
  sending : s.tx.sendingMsgs = flight.map (whole c.headLen)
  len : ps.length = s.past.length
  past : ∀ (k : Nat) (q : LinkPart) (w : Bytes), ps[k]? = some q → s.past[k]? = some w →
    streamOf c.headLen q.written <+: w ∧ w <+: streamOf c.headLen (q.written ++ q.failed)
  written : lWritten es = ((ps.map LinkPart.written).flatten ++ p.written).map (wire c.headLen)
  failed : lFailed es = ((ps.map LinkPart.failed).flatten ++ p.failed).map (wire c.headLen)
  alive : s.dead = false → p.failed = [] ∧ s.tx.wire ++ s.tx.unwritten = streamOf c.headLen (p.written ++ flight) ∧ ∀ d ∈ s.tx.dones, d.ok = true
  dead : s.dead = true → streamOf c.headLen p.written <+: s.tx.wire ∧ s.tx.wire <+: streamOf c.headLen (p.written ++ p.failed ++ flight) ∧
    (∀ w ∈ s.tx.writes, w.done = 0) ∧ ∀ d ∈ s.tx.dones, d.ok = false
  down : s.up = false → s.past = [] ∧ p = ⟨[], []⟩ ∧ flight = [] ∧ s.dead = false ∧ s.tx.ready = false ∧ s.tx.atFlag = 0 ∧ s.tx.posted = 0 ∧ s.tx.pc = .idle
  small : ∀ b ∈ lSent es, c.headLen + b.length ≤ c.bufSize ∧ c.headLen + b.length < 256 ^ c.headLen

theorem Links.init_rel (c : Cfg) : Links.init.Rel c [] [] ⟨[], []⟩ [] [] where
  inv := Tx.init_inv
  bad := rfl
  all := rfl
  queue := rfl
  sending := rfl
  len := rfl
  past := by intro k q w h; simp at h
  written := rfl
  failed := rfl
  alive := fun _ => ⟨rfl, rfl, by simp [Links.init, Tx.init]⟩
  dead := by intro h; simp [Links.init] at h
  down := fun _ => ⟨rfl, rfl, rfl, rfl, rfl, rfl, rfl, rfl⟩
  small := by simp [lSent]

/-- Steps without any effect on messages and streams. -/
theorem Links.Rel.same {c : Cfg} {s s' : Links} {es : List LinksEv} {ps : List LinkPart} {p : LinkPart} {flight waiting : List Item}
    (h : s.Rel c es ps p flight waiting) (hi : s'.tx.Inv) (h1 : s'.tx.q.items = s.tx.q.items) (h2 : s'.tx.sendingMsgs = s.tx.sendingMsgs)
    (h3 : s'.tx.writes = s.tx.writes) (h4 : s'.tx.dones = s.tx.dones) (h5 : s'.tx.wire = s.tx.wire) (h6 : s'.dead = s.dead) (h7 : s'.up = s.up)
    (h8 : s'.past = s.past) (h9 : s'.bad = s.bad)
    (hd : s.tx.ready = false → s.tx.atFlag = 0 → s.tx.posted = 0 → s.tx.pc = .idle → s.tx.q.items = s'.tx.q.items →
      s'.tx.ready = false ∧ s'.tx.atFlag = 0 ∧ s'.tx.posted = 0 ∧ s'.tx.pc = .idle) :
    s'.Rel c (es ++ []) ps p flight waiting := by
  rw [List.append_nil]
  have hu : s'.tx.unwritten = s.tx.unwritten := by simp [Tx.unwritten, h3]
  refine ⟨hi, by rw [h9, h.bad], h.all, by rw [h1, h.queue], by rw [h2, h.sending], by rw [h8, h.len], by rw [h8]; exact h.past, h.written, h.failed, ?_, ?_, ?_, h.small⟩
  · rw [h6, h5, hu, h4]; exact h.alive
  · rw [h6, h5, h4, h3]; exact h.dead
  · rw [h7, h8, h6]
    intro hup
    obtain ⟨d1, d2, d3, d4, d5, d6, d7, d8⟩ := h.down hup
    exact ⟨d1, d2, d3, d4, hd d5 d6 d7 d8 h1.symm⟩

theorem append_snoc_len {α : Type} {l : List α} {a x : α} {k : Nat} (h : (l ++ [a])[k]? = some x) : l[k]? = some x ∨ (k = l.length ∧ x = a) := by
  rcases Nat.lt_or_ge k l.length with hk | hk
  · rw [List.getElem?_append_left hk] at h; exact Or.inl h
  · rw [List.getElem?_append_right hk] at h
    cases hj : k - l.length with
    | zero => rw [hj] at h; simp at h; exact Or.inr ⟨by omega, h.symm⟩
    | succ j => rw [hj] at h; simp at h

theorem Links.tx_rel {c : Cfg} {batch : Nat} {s s' : Links} {es fs : List LinksEv} {nd : Bool} {a : TxAct} {ps : List LinkPart} {p : LinkPart} {flight waiting : List Item}
    (h : s.Rel c es ps p flight waiting) (hs : s.step c nd false batch (.tx a) = some (s', fs)) :
    ∃ ps p flight waiting, s'.Rel c (es ++ fs) ps p flight waiting := by
  have hl0 := c.headLen_pos
  simp only [Links.step] at hs
  split at hs
  · cases hs
  next hlk =>
  split at hs
  · cases hs
  next hdt =>
  rw [Option.map_eq_some_iff] at hs
  obtain ⟨⟨t, tes⟩, ht, hs⟩ := hs
  simp only [Bool.false_eq_true, if_false, Prod.mk.injEq] at hs
  obtain ⟨rfl, rfl⟩ := hs
  have hi := (Tx.step_inv h.inv ht).1
  have hown := h.inv.owner
  have hle : s.tx.writes.length + s.tx.dones.length ≤ 1 := by
    have : (if s.tx.sending then 1 else 0) ≤ 1 := by split <;> omega
    omega
  cases a with
  | loadReady =>
    simp only [Tx.step] at ht
    split at ht
    · cases ht
    · cases ht
      refine ⟨ps, p, flight, waiting, h.same hi rfl rfl rfl rfl rfl rfl (by simp) (by simp) rfl ?_⟩
      intro d5 d6 d7 d8 _
      simp [d5, d6, d7, d8]
  | loadFlag =>
    simp only [Tx.step] at ht
    split at ht
    · cases ht
    · next hne =>
      cases ht
      refine ⟨ps, p, flight, waiting, h.same hi rfl rfl rfl rfl rfl rfl (by simp) (by simp) rfl ?_⟩
      intro d5 d6 d7 d8 _
      exact absurd d6 hne
  | runPosted =>
    simp only [Tx.step] at ht
    split at ht
    · cases ht
    · next hne =>
      cases ht
      refine ⟨ps, p, flight, waiting, h.same hi rfl rfl rfl rfl rfl rfl (by simp) (by simp) rfl ?_⟩
      intro d5 d6 d7 d8 _
      exact absurd (Or.inl d7) hne
  | linkDown =>
    simp only [Tx.step] at ht
    cases ht
    refine ⟨ps, p, flight, waiting, h.same hi rfl rfl rfl rfl rfl rfl (by simp) (by simp) rfl ?_⟩
    intro d5 d6 d7 d8 _
    exact ⟨rfl, d6, d7, d8⟩
  | onClose =>
    simp only [Tx.step] at ht
    split at ht
    · cases ht
    · cases ht
      rw [Tx.onClose, h.sending, promises_whole]
      exact ⟨ps, p, flight, waiting, h.same hi rfl rfl rfl rfl rfl rfl (by simp) (by simp) rfl (fun d5 d6 d7 d8 _ => ⟨d5, d6, d7, d8⟩)⟩
  | strand =>
    simp only [Tx.step, Tx.strand] at ht
    split at ht
    · cases ht
    · next hpc =>
      split at ht <;>
      · cases ht
        refine ⟨ps, p, flight, waiting, h.same hi rfl rfl rfl rfl rfl rfl (by simp) (by simp) rfl ?_⟩
        intro d5 d6 d7 d8 _
        rw [d8] at hpc; cases hpc
    · next hpc =>
      have hno : s.tx.writes = [] ∧ s.tx.dones = [] := by
        rw [hpc] at hown
        have : (if s.tx.sending then 1 else 0) ≤ 1 := by split <;> omega
        simp only [TxPc.owner] at hown
        exact ⟨List.length_eq_zero_iff.mp (by omega), List.length_eq_zero_iff.mp (by omega)⟩
      have hsm := h.inv.none hno.1 hno.2
      have hfl : flight = [] := by
        have := h.sending
        rw [hsm] at this
        simpa using this.symm
      subst hfl
      obtain ⟨m, e1, e2, e3⟩ := moveOutBytes_spec s.tx.q h.inv.exact s.tx.sendingMsgs batch
      rw [hsm, List.nil_append] at e1
      split at ht
      · next hemp =>
        cases ht
        rw [hsm] at hemp
        have hm : m = [] := by rw [← e1]; simpa using hemp
        refine ⟨ps, p, [], waiting, h.same hi ?_ (by simp only; rw [hsm, e1, hm]) rfl rfl rfl rfl (by simp) (by simp) rfl ?_⟩
        · rw [hm] at e2; simpa using e2.symm
        · intro d5 d6 d7 d8 _
          rw [d8] at hpc; cases hpc
      · next hemp =>
        cases ht
        rw [h.queue, List.map_eq_append_iff] at e2
        obtain ⟨f, r, rfl, e4, e5⟩ := e2
        refine ⟨ps, p, f, r, hi, h.bad, ?_, e5.symm, ?_, h.len, ?_, ?_, ?_, ?_, ?_, ?_, ?_⟩
        · simp only [List.filterMap_cons, txLinksEv, List.filterMap_nil, List.append_nil]
          rw [h.all]; simp
        · simp only; rw [hsm, e1, e4]
        · simpa using h.past
        · rw [List.filterMap_cons]; simpa only [txLinksEv, List.filterMap_nil, List.append_nil] using h.written
        · rw [List.filterMap_cons]; simpa only [txLinksEv, List.filterMap_nil, List.append_nil] using h.failed
        · intro hd
          obtain ⟨a1, a2, a3⟩ := h.alive hd
          refine ⟨a1, ?_, a3⟩
          simp only [Tx.unwritten, hno.1, List.nil_append, List.map_cons, List.map_nil, List.flatten_cons, List.flatten_nil, List.append_nil, List.drop_zero] at a2 ⊢
          rw [a2, hsm, e1, ← e4, bytes_whole, ← streamOf_append]
        · intro hd
          obtain ⟨a1, a2, a3, a4⟩ := h.dead hd
          refine ⟨a1, ?_, ?_, a4⟩
          · rw [streamOf_append]
            exact List.IsPrefix.trans (by simpa using a2) (List.prefix_append _ _)
          · simp [hno.1]
        · intro hup
          have := (h.down (by simpa using hup)).2.2.2.2.2.2.2
          rw [hpc] at this; cases this
        · rw [List.filterMap_cons]; simpa only [txLinksEv, List.filterMap_nil, List.append_nil] using h.small
    · next hpc =>
      cases ht
      refine ⟨ps, p, flight, waiting, h.same hi rfl rfl rfl rfl rfl rfl (by simp) (by simp) rfl ?_⟩
      intro d5 d6 d7 d8 _
      rw [d8] at hpc; cases hpc
    · next hpc =>
      cases ht
      refine ⟨ps, p, flight, waiting, h.same hi rfl rfl rfl rfl rfl rfl (by simp) (by simp) rfl ?_⟩
      intro d5 d6 d7 d8 _
      rw [d8] at hpc; cases hpc
    · next hpc =>
      cases ht
      refine ⟨ps, p, flight, waiting, h.same hi rfl rfl rfl rfl rfl rfl (by simp) (by simp) rfl ?_⟩
      intro d5 d6 d7 d8 _
      rw [d8] at hpc; cases hpc
  | transfer i k =>
    have hdead : s.dead = false := by simpa [TxAct.isTransfer] using hdt
    have hw := Tx.step_wire h.inv ht ⟨by simp, by simp⟩
    simp only [Tx.step, Option.bind_eq_bind] at ht
    rw [Option.bind_eq_some_iff] at ht
    obtain ⟨w, h1, ht⟩ := ht
    split at ht
    · cases ht
    · cases ht
      refine ⟨ps, p, flight, waiting, hi, h.bad, by simpa using h.all, h.queue, h.sending, h.len, by simpa using h.past, by simpa using h.written, by simpa using h.failed, ?_, ?_, ?_, by simpa using h.small⟩
      · intro hd
        obtain ⟨a1, a2, a3⟩ := h.alive hd
        refine ⟨a1, ?_, a3⟩
        rw [← a2]
        simpa [handedMsgs, TxMsg.bytes] using hw
      · intro hd; simp only [Links.deadAfter] at hd; rw [hdead] at hd; cases hd
      · intro hup
        obtain ⟨d1, d2, d3, d4, d5, d6, d7, d8⟩ := h.down (by simpa using hup)
        exact ⟨by simpa using d1, d2, d3, d4, d5, d6, d7, d8⟩
  | complete i ok =>
    simp only [Tx.step, Option.bind_eq_bind] at ht
    rw [Option.bind_eq_some_iff] at ht
    obtain ⟨w, h1, ht⟩ := ht
    split at ht
    · cases ht
    · next hok =>
      cases ht
      obtain ⟨hw1, rfl⟩ := length_one_eq (by omega) h1
      have hd0 : s.tx.dones = [] := by rw [hw1, List.length_singleton] at hle; exact List.length_eq_zero_iff.mp (by omega)
      obtain ⟨b1, b2, b3⟩ := h.inv.wbufs w (by simp [hw1])
      have hfl : flight ≠ [] := by
        intro hc
        exact h.inv.some (Or.inl (by simp [hw1])) (by rw [h.sending, hc]; rfl)
      refine ⟨ps, p, flight, waiting, hi, h.bad, by simpa using h.all, h.queue, h.sending, h.len, by simpa using h.past, by simpa using h.written, by simpa using h.failed, ?_, ?_, ?_, by simpa using h.small⟩
      · intro hd
        cases ok with
        | false => simp [Links.deadAfter] at hd
        | true =>
          obtain ⟨a1, a2, a3⟩ := h.alive hd
          refine ⟨a1, ?_, by simp [hd0]⟩
          rw [← a2]
          simp at hok
          simp [Tx.unwritten, hw1, hok]
      · intro hd
        cases hds : s.dead with
        | true =>
          obtain ⟨a1, a2, a3, a4⟩ := h.dead hds
          refine ⟨a1, a2, by simp [hw1], ?_⟩
          cases ok with
          | false => simp [hd0]
          | true =>
            simp at hok
            rw [a3 w (by simp [hw1]), b1, h.sending, bytes_whole] at hok
            have := streamOf_ne hl0 hfl
            omega
        | false =>
          cases ok with
          | true => simp [Links.deadAfter, hds] at hd
          | false =>
            obtain ⟨a1, a2, a3⟩ := h.alive hds
            refine ⟨?_, ?_, by simp [hw1], by simp [hd0]⟩
            · have e1 : s.tx.unwritten = (TxMsg.bytes w.bufs).drop w.done := by simp [Tx.unwritten, hw1]
              have e2 : TxMsg.bytes w.bufs = streamOf c.headLen flight := by rw [b1, h.sending, bytes_whole]
              rw [e1, e2, streamOf_append] at a2
              have e3 : (streamOf c.headLen flight).length = w.done + ((streamOf c.headLen flight).drop w.done).length := by
                rw [e2] at b2; simp; omega
              have hlen := congrArg List.length a2
              simp only [List.length_append] at hlen
              have hle2 : (streamOf c.headLen p.written).length ≤ s.tx.wire.length := by omega
              exact List.prefix_of_prefix_length_le (List.prefix_append _ _) ⟨_, a2⟩ hle2
            · rw [a1, List.append_nil]; exact ⟨_, a2⟩
      · intro hup
        have := (h.down (by simpa using hup)).2.2.1
        exact absurd this hfl
  | handler i =>
    simp only [Tx.step, Option.bind_eq_bind] at ht
    rw [Option.bind_eq_some_iff] at ht
    obtain ⟨d, h1, ht⟩ := ht
    split at ht
    · cases ht
    · next hpc =>
      obtain ⟨hd1, rfl⟩ := length_one_eq (by omega) h1
      have hw0 : s.tx.writes = [] := by rw [hd1, List.length_singleton] at hle; exact List.length_eq_zero_iff.mp (by omega)
      have hfl : flight ≠ [] := by
        intro hc
        exact h.inv.some (Or.inr (by simp [hd1])) (by rw [h.sending, hc]; rfl)
      simp only [Tx.handler, h.sending, promises_whole, List.nil_append, Option.some.injEq] at ht
      cases hdk : d.ok with
      | true =>
        have hds : s.dead = false := by
          cases hds : s.dead with
          | false => rfl
          | true => have := (h.dead hds).2.2.2 d (by simp [hd1]); rw [hdk] at this; cases this
        obtain ⟨a1, a2, a3⟩ := h.alive hds
        rw [hdk] at ht
        simp only [if_true] at ht
        cases ht
        refine ⟨ps, ⟨p.written ++ flight, p.failed⟩, [], waiting, hi, h.bad, ?_, h.queue, rfl, h.len, by simpa using h.past, ?_, ?_, ?_, ?_, ?_, ?_⟩
        · rw [List.filterMap_cons]; simp only [txLinksEv, List.filterMap_nil, lSent_append, lSent, List.append_nil]; rw [h.all, a1]; simp
        · rw [List.filterMap_cons]; simp only [txLinksEv, List.filterMap_nil, lWritten_append, lWritten, List.append_nil, data_whole]; rw [h.written]; simp
        · rw [List.filterMap_cons]; simp only [txLinksEv, List.filterMap_nil, lFailed_append, lFailed, List.append_nil]; exact h.failed
        · intro _
          refine ⟨a1, ?_, by simp [hd1]⟩
          simpa [Tx.unwritten, hw0] using a2
        · intro hd; simp only [Links.deadAfter] at hd; rw [hds] at hd; cases hd
        · intro hup; exact absurd (h.down (by simpa using hup)).2.2.1 hfl
        · simpa [txLinksEv, lSent_append, lSent] using h.small
      | false =>
        have hds : s.dead = true := by
          cases hds : s.dead with
          | true => rfl
          | false => have := (h.alive hds).2.2 d (by simp [hd1]); rw [hdk] at this; cases this
        obtain ⟨a1, a2, a3, a4⟩ := h.dead hds
        rw [hdk] at ht
        simp only [Bool.false_eq_true, if_false] at ht
        cases ht
        refine ⟨ps, ⟨p.written, p.failed ++ flight⟩, [], waiting, hi, h.bad, ?_, h.queue, rfl, h.len, by simpa using h.past, ?_, ?_, ?_, ?_, ?_, ?_⟩
        · rw [List.filterMap_cons]; simp only [txLinksEv, List.filterMap_nil, lSent_append, lSent, List.append_nil]; rw [h.all]; simp
        · rw [List.filterMap_cons]; simp only [txLinksEv, List.filterMap_nil, lWritten_append, lWritten, List.append_nil]; exact h.written
        · rw [List.filterMap_cons]; simp only [txLinksEv, List.filterMap_nil, lFailed_append, lFailed, List.append_nil, data_whole]; rw [h.failed]; simp
        · intro hd; simp only [Links.deadAfter] at hd; rw [hds] at hd; cases hd
        · intro _
          exact ⟨a1, by simpa using a2, by simp [hw0], by simp [hd1]⟩
        · intro hup; exact absurd (h.down (by simpa using hup)).2.2.1 hfl
        · simpa [txLinksEv, lSent_append, lSent] using h.small
  | linkUp =>
    simp only [Tx.step] at ht
    split at ht
    · cases ht
    · next hg =>
      have hna := noAsync_true (s := s.tx) (by simpa using fun hf => hg (Or.inr hf))
      cases ht
      have hsm := h.inv.none hna.2.2.1 hna.2.2.2
      have hfl : flight = [] := by
        have := h.sending
        rw [hsm] at this
        simpa using this.symm
      subst hfl
      have hun : s.tx.unwritten = [] := by simp [Tx.unwritten, hna.2.2.1]
      cases hup : s.up with
      | false =>
        obtain ⟨d1, d2, d3, d4, d5, d6, d7, d8⟩ := h.down hup
        subst d2
        have hl : ps = [] := by have := h.len; rw [d1] at this; exact List.length_eq_zero_iff.mp (by simpa using this)
        subst hl
        refine ⟨[], ⟨[], []⟩, [], waiting, hi, h.bad, by simpa using h.all, h.queue, h.sending, by simp [Links.streams, hup, d1], by simp, by simpa using h.written, by simpa using h.failed, ?_, ?_, ?_, by simpa using h.small⟩
        · intro _; exact ⟨rfl, by simp [Tx.unwritten, hna.2.2.1, streamOf], by simp [hna.2.2.2]⟩
        · intro hd; simp [Links.deadAfter] at hd
        · intro hu; simp at hu
      | true =>
        refine ⟨ps ++ [p], ⟨[], []⟩, [], waiting, hi, h.bad, ?_, h.queue, h.sending, by simp [Links.streams, hup, h.len], ?_, ?_, ?_, ?_, ?_, ?_, by simpa using h.small⟩
        · simp only [List.filterMap_nil, List.append_nil]; rw [h.all]; simp
        · intro k q w hq hw
          simp only [Links.streams, hup, if_true] at hw
          rcases append_snoc_len hq with hq | ⟨rfl, rfl⟩
          · have hk : k < s.past.length := by
              rw [← h.len]
              exact (List.getElem?_eq_some_iff.mp hq).1
            rw [List.getElem?_append_left hk] at hw
            exact h.past k q w hq hw
          · rw [h.len] at hw
            simp at hw
            subst hw
            cases hds : s.dead with
            | false =>
              obtain ⟨a1, a2, a3⟩ := h.alive hds
              rw [hun, List.append_nil, List.append_nil] at a2
              rw [a2, a1, List.append_nil]
              exact ⟨List.prefix_refl _, List.prefix_refl _⟩
            | true =>
              obtain ⟨a1, a2, a3, a4⟩ := h.dead hds
              exact ⟨a1, by simpa using a2⟩
        · simp only [List.filterMap_nil, List.append_nil]; rw [h.written]; simp
        · simp only [List.filterMap_nil, List.append_nil]; rw [h.failed]; simp
        · intro _; exact ⟨rfl, by simp [Tx.unwritten, hna.2.2.1, streamOf], by simp [hna.2.2.2]⟩
        · intro hd; simp [Links.deadAfter] at hd
        · intro hu; simp at hu
  | _ => simp [TxAct.linky] at hlk

end StAsio
