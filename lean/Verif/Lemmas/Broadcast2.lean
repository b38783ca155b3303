import Verif.Lemmas.Broadcast
/-!
Invariants of broadcasting.
-/
set_option linter.unusedSimpArgs false
set_option autoImplicit false
namespace StAsio

/-- The send buffers. -/
theorem Bc.exact_run {c : BCfg} {s : Bc} {as : List BAct} {es : List BEv} (h : Bc.Run c Bc.init as s es) : ∀ k, (s.q k).Exact bsz := by
  induction h with
  | nil => intro k; rfl
  | snoc s1 s2 as a es es' hr hs ih =>
    intro j
    have hb : ∀ k q', q'.Exact bsz → (bset s1.q k q' j).Exact bsz := by
      intro k q' hq
      unfold bset
      split
      · exact hq
      · exact ih j
    cases Bc.step_cases hs with
    | accept t k rest w safe size packs co prior o _ _ _ he _ =>
      obtain ⟨o', d, r, e1, e2, _⟩ := bsend_spec c (s1.q k) ⟨some t, size⟩ packs co prior (ih k)
      rw [he] at e1; cases e1; exact hb _ _ e2
    | retry t k rest w size packs co prior o _ _ _ he _ =>
      obtain ⟨o', d, r, e1, e2, _⟩ := bsend_spec c (s1.q k) ⟨some t, size⟩ packs co prior (ih k)
      rw [he] at e1; cases e1; exact hb _ _ e2
    | refuse t k rest w safe size packs co prior o _ _ _ he _ =>
      obtain ⟨o', d, r, e1, e2, _⟩ := bsend_spec c (s1.q k) ⟨some t, size⟩ packs co prior (ih k)
      rw [he] at e1; cases e1; exact hb _ _ e2
    | send k size co prior o he =>
      obtain ⟨o', d, r, e1, e2, _⟩ := bsend_spec c (s1.q k) ⟨none, size⟩ true co prior (ih k)
      rw [he] at e1; cases e1; exact hb _ _ e2
    | drain k q m _ _ hd =>
      rcases bdeq (s1.q k) (ih k) with ⟨_, e⟩ | ⟨m', l, q', _, e, _, e'⟩
      · rw [hd] at e; cases e
      · rw [hd] at e; cases e; exact hb _ _ e'
    | _ => exact ih j

/-- The pool. -/
structure BPool (s : Bc) (es : List BEv) : Prop where
  mem : ∀ k, k ∈ s.pool ↔ BEv.added k ∈ es ∧ BEv.removed k ∉ es
  add : ∀ k, BEv.added k ∈ es ↔ k < s.n
  rem : ∀ k, BEv.removed k ∈ es → k < s.n
  nodup : s.pool.Nodup
  dead : ∀ k, k < s.n → s.live k = false → BEv.shut k ∈ es ∨ BEv.removed k ∈ es

set_option maxHeartbeats 2000000 in
theorem Bc.pool_run {c : BCfg} {s : Bc} {as : List BAct} {es : List BEv} (h : Bc.Run c Bc.init as s es) : BPool s es := by
  induction h with
  | nil => constructor <;> simp [Bc.init]
  | snoc s1 s2 as a es es' hr hs ih =>
    obtain ⟨i1, i2, i3, i4, i5⟩ := ih
    cases Bc.step_cases hs <;> constructor <;> simp only [bset] <;> grind

/-- The calls. -/
structure BCalls (s : Bc) (as : List BAct) (es : List BEv) : Prop where
  called : ∀ t b, BEv.called t b ∈ es ↔ (s.work[t]?).map (fun w => w.job.isBcast) = some b
  lk : ∀ t, t ∈ lockOrder as ↔ (s.work[t]?).map (fun w => decide (w.pc = .waiting)) = some false
  lknd : (lockOrder as).Nodup
  ret : ∀ t, BEv.returned t ∈ es ↔ (s.work[t]?).map (fun w => decide (w.pc = .done)) = some true

theorem lockOrder_snoc (as : List BAct) (a : BAct) : lockOrder (as ++ [a]) = lockOrder as ++ (match a with | .lock t _ => [t] | _ => []) := by
  rw [lockOrder_append]; cases a <;> rfl

set_option maxHeartbeats 4000000 in
theorem Bc.calls_run {c : BCfg} {s : Bc} {as : List BAct} {es : List BEv} (h : Bc.Run c Bc.init as s es) : BCalls s as es := by
  induction h with
  | nil => constructor <;> simp [Bc.init, lockOrder]
  | snoc s1 s2 as a es es' hr hs ih =>
    obtain ⟨i1, i2, i3, i4⟩ := ih
    cases Bc.step_cases hs <;> constructor <;> (try rw [lockOrder_snoc]) <;> simp only [] <;> grind

/-- Who was asked. -/
structure BAns (s : Bc) (es : List BEv) : Prop where
  zero : ∀ t k, answers k t es ≠ 0 → (s.work[t]?).map (fun w => decide (w.pc = .waiting)) = some false
  le : ∀ t k, answers k t es ≤ 1
  nodup : ∀ (t : Nat) (w : BWork) (rest : List Nat), s.work[t]? = some w → w.pc = .going rest → rest.Nodup
  rest : ∀ (t : Nat) (w : BWork) (rest : List Nat), s.work[t]? = some w → w.pc = .going rest → ∀ k ∈ rest, answers k t es = 0
  asked : ∀ (t : Nat) (w : BWork) (rest : List Nat), s.work[t]? = some w → w.pc = .going rest → w.job.isBcast = true → ∀ k ∈ s.pool, k ∉ rest → answers k t es = 1
  shut : ∀ (t : Nat) (w : BWork) (rest : List Nat), s.work[t]? = some w → w.pc = .going rest → w.job.isBcast = false → ∀ k ∈ s.pool, k ∉ rest → s.live k = false

theorem answers_nil (k t : Nat) : answers k t [] = 0 := rfl
theorem answers_accepted (k t j u : Nat) : answers k t [.accepted j u] = if j = k ∧ u = t then 1 else 0 := by
  simp only [answers, List.countP_cons, List.countP_nil, BEv.accepted.injEq, reduceCtorEq, or_false, decide_eq_true_eq]; grind
theorem answers_refused (k t j u : Nat) : answers k t [.refused j u] = if j = k ∧ u = t then 1 else 0 := by
  simp only [answers, List.countP_cons, List.countP_nil, BEv.refused.injEq, reduceCtorEq, false_or, decide_eq_true_eq]; grind
theorem answers_other (k t : Nat) (es : List BEv) (h : ∀ e ∈ es, ∀ j u, e ≠ .accepted j u ∧ e ≠ .refused j u) : answers k t es = 0 := by
  unfold answers
  rw [List.countP_eq_zero]
  intro e he
  have := h e he k t
  simp [this.1, this.2]

theorem Bc.holds_false {s : Bc} (h : s.holds = false) {t : Nat} {w : BWork} (hw : s.work[t]? = some w) : w.pc.holds = false := by
  cases hp : w.pc.holds with
  | false => rfl
  | true => rw [Bc.holds_of hw hp] at h; cases h

set_option maxHeartbeats 4000000 in
theorem Bc.ans_run {c : BCfg} {s : Bc} {as : List BAct} {es : List BEv} (h : Bc.Run c Bc.init as s es) : BAns s es := by
  induction h with
  | nil => constructor <;> simp [Bc.init, answers]
  | snoc s1 s2 as a es es' hr hs ih =>
    have hpool := Bc.pool_run hr
    have hnd := hpool.nodup
    clear hpool
    obtain ⟨i1, i2, i3, i4, i5, i6⟩ := ih
    have ht := Bc.step_cases hs
    have hz : (∀ e ∈ es', ∀ j u, e ≠ BEv.accepted j u ∧ e ≠ .refused j u) → ∀ k t, answers k t (es ++ es') = answers k t es := by
      intro hh k t; rw [answers_append, answers_other k t es' hh]; rfl
    have hf : ∀ {t : Nat} {w : BWork} {rest : List Nat}, s1.holds = false → s1.work[t]? = some w → w.pc = .going rest → False := by
      intro t w rest hh hw hp
      have := Bc.holds_false hh hw
      rw [hp] at this; cases this
    clear hs hr
    cases ht with
    | add hh => have hz := hz (by simp); constructor <;> simp only [hz, bset] <;> grind
    | remove k hh => have hz := hz (by simp); constructor <;> simp only [hz, bset] <;> grind
    | closeBegin => have hz := hz (by simp); constructor <;> simp only [hz, bset] <;> grind
    | closeEnd k es' hh _ he => have hz := hz (by subst he; split <;> simp); constructor <;> simp only [hz, bset] <;> grind
    | call => have hz := hz (by simp); constructor <;> simp only [hz, bset] <;> grind
    | lock t order w hw hp hpm =>
      have hz := hz (by simp)
      have hm : ∀ k, k ∈ order ↔ k ∈ s1.pool := fun k => hpm.mem_iff
      have hn : order.Nodup := hpm.nodup_iff.mpr hnd
      constructor <;> simp only [hz, bset] <;> grind
    | accept t k rest w safe size packs co prior o hw hp hj =>
      have hl := i2 t k
      have h0 := i4 t w _ hw hp k (by simp)
      have hn := i3 t w _ hw hp
      have hb : w.job.isBcast = true := by rw [hj]; rfl
      constructor <;> simp only [answers_append, answers_accepted, bset] <;> grind
    | retry => have hz := hz (by simp); constructor <;> simp only [hz, bset] <;> grind
    | refuse t k rest w safe size packs co prior o hw hp hj =>
      have hl := i2 t k
      have h0 := i4 t w _ hw hp k (by simp)
      have hn := i3 t w _ hw hp
      have hb : w.job.isBcast = true := by rw [hj]; rfl
      constructor <;> simp only [answers_append, answers_refused, bset] <;> grind
    | shut t k rest w hw hp hj =>
      have hz := hz (by simp)
      have hb : w.job.isBcast = false := by rw [hj]; rfl
      constructor <;> simp only [hz, bset] <;> grind
    | shutSelf t k rest w hw hp hj =>
      have hz := hz (by simp)
      have hb : w.job.isBcast = false := by rw [hj]; rfl
      constructor <;> simp only [hz, bset] <;> grind
    | skip t k rest w hw hp hj =>
      have hz := hz (by simp)
      have hb : w.job.isBcast = false := by rw [hj]; rfl
      constructor <;> simp only [hz, bset] <;> grind
    | unlock => have hz := hz (by simp); constructor <;> simp only [hz, bset] <;> grind
    | send => have hz := hz (by simp); constructor <;> simp only [hz, bset] <;> grind
    | drain => have hz := hz (by simp); constructor <;> simp only [hz, bset] <;> grind
    | brk => have hz := hz (by simp); constructor <;> simp only [hz, bset] <;> grind
    | userShut => have hz := hz (by simp); constructor <;> simp only [hz, bset] <;> grind
    | userShut' k es' _ _ hh he => have hz := hz (by subst he; split <;> simp); constructor <;> simp only [hz, bset] <;> grind
    | stopIo => have hz := hz (by simp); constructor <;> simp only [hz, bset] <;> grind

/-- No broadcast is to go in front of the others. -/
def BAct.noPrior : BAct → Bool
  | .call (.bcast _ _ _ _ prior) _ => !prior
  | _ => true

theorem Bc.noPrior_run {c : BCfg} {s : Bc} {as : List BAct} {es : List BEv} (h : Bc.Run c Bc.init as s es) (hp : ∀ a ∈ as, a.noPrior = true) :
    ∀ (t : Nat) (w : BWork) (safe : Bool) (size : Nat) (packs co prior : Bool), s.work[t]? = some w → w.job = .bcast safe size packs co prior → prior = false := by
  induction h with
  | nil => simp [Bc.init]
  | snoc s1 s2 as a es es' hr hs ih =>
    have ih := ih (fun a ha => hp a (by simp [ha]))
    have ha := hp a (by simp)
    cases Bc.step_cases hs with
    | call job inSvc =>
      intro t w safe size packs co prior hw hj
      simp only [List.getElem?_append] at hw
      split at hw
      · exact ih _ _ _ _ _ _ _ hw hj
      · cases hx : t - s1.work.length with
        | zero => rw [hx] at hw; cases hw; subst hj; simpa [BAct.noPrior] using ha
        | succ n => rw [hx] at hw; cases hw
    | _ => grind

/-- First in, first out. -/
theorem Bc.fifo_run {c : BCfg} {s : Bc} {as : List BAct} {es : List BEv} (h : Bc.Run c Bc.init as s es) (hp : ∀ a ∈ as, a.noPrior = true) (k : Nat) :
    (sentBy k es ++ btags (s.q k).items).Sublist (acceptedBy k es) ∧ (c.send.shrink = none → sentBy k es ++ btags (s.q k).items = acceptedBy k es) := by
  induction h with
  | nil => exact ⟨List.Sublist.refl _, fun _ => rfl⟩
  | snoc s1 s2 as a es es' hr hs ih =>
    have hx := Bc.exact_run hr
    have hnp := Bc.noPrior_run hr (fun a ha => hp a (by simp [ha]))
    have ih := ih (fun a ha => hp a (by simp [ha]))
    rw [sentBy_append, acceptedBy_append]
    have hsame : sentBy k es' = [] → acceptedBy k es' = [] → s2.q k = s1.q k → ((sentBy k es ++ sentBy k es') ++ btags (s2.q k).items).Sublist (acceptedBy k es ++ acceptedBy k es') ∧ (c.send.shrink = none → (sentBy k es ++ sentBy k es') ++ btags (s2.q k).items = acceptedBy k es ++ acceptedBy k es') := by
      intro a1 a2 a3; rw [a1, a2, a3, List.append_nil, List.append_nil]; exact ih
    -- a buffer that only lost messages at its front
    have hless : ∀ d r, (s1.q k).items = d ++ r → (c.send.shrink = none → d = []) → btags (s2.q k).items = btags r → (sentBy k es ++ btags (s2.q k).items).Sublist (acceptedBy k es) ∧ (c.send.shrink = none → sentBy k es ++ btags (s2.q k).items = acceptedBy k es) := by
      intro d r e1 e2 e3
      rw [e1, btags_append] at ih
      rw [e3]
      refine ⟨List.Sublist.trans ?_ ih.1, fun hn => ?_⟩
      · exact List.Sublist.append (List.Sublist.refl _) (List.sublist_append_right _ _)
      · have := ih.2 hn; rw [e2 hn] at this; simpa [btags] using this
    cases Bc.step_cases hs with
    | accept t j rest w safe size packs co prior o hw hpc hj he hret =>
      obtain ⟨o', d, r, e1, e2, e3, e4, e5, _⟩ := bsend_spec c (s1.q j) ⟨some t, size⟩ packs co prior (hx j)
      rw [he] at e1; cases e1
      have hpr := hnp t w safe size packs co prior hw hj
      subst hpr
      by_cases hk : j = k
      · subst hk
        simp only [sentBy, acceptedBy, if_true, List.append_nil, bset]
        rw [e5, hret]
        simp only [if_true, Bool.false_eq_true, if_false, btags_append]
        rw [e3, btags_append] at ih
        simp only [btags_cons, Option.toList_some]
        have hb : btags ([] : List BMsg) = [] := rfl
        rw [hb, List.append_nil, ← List.append_assoc]
        refine ⟨?_, fun hn => ?_⟩
        · refine List.Sublist.append (List.Sublist.trans ?_ ih.1) (List.Sublist.refl _)
          exact List.Sublist.append (List.Sublist.refl _) (List.sublist_append_right _ _)
        · have := ih.2 hn; rw [e4 hn] at this
          rw [← this]; simp [btags]
      · exact hsame rfl (by simp [acceptedBy, hk]) (by simp [bset, Ne.symm hk])
    | retry t j rest w size packs co prior o hw hpc hj he hret =>
      obtain ⟨o', d, r, e1, e2, e3, e4, e5, _⟩ := bsend_spec c (s1.q j) ⟨some t, size⟩ packs co prior (hx j)
      rw [he] at e1; cases e1
      by_cases hk : j = k
      · subst hk
        simp only [sentBy, acceptedBy, List.append_nil]
        exact hless d r e3 e4 (by simp only [bset, if_true]; rw [e5, hret]; rfl)
      · exact hsame rfl rfl (by simp [bset, Ne.symm hk])
    | refuse t j rest w safe size packs co prior o hw hpc hj he hret =>
      obtain ⟨o', d, r, e1, e2, e3, e4, e5, _⟩ := bsend_spec c (s1.q j) ⟨some t, size⟩ packs co prior (hx j)
      rw [he] at e1; cases e1
      by_cases hk : j = k
      · subst hk
        simp only [sentBy, acceptedBy, List.append_nil]
        exact hless d r e3 e4 (by simp only [bset, if_true]; rw [e5, hret]; rfl)
      · exact hsame rfl rfl (by simp [bset, Ne.symm hk])
    | send j size co prior o he =>
      obtain ⟨o', d, r, e1, e2, e3, e4, e5, _⟩ := bsend_spec c (s1.q j) ⟨none, size⟩ true co prior (hx j)
      rw [he] at e1; cases e1
      by_cases hk : j = k
      · subst hk
        simp only [sentBy, acceptedBy, List.append_nil]
        refine hless d r e3 e4 ?_
        simp only [bset, if_true]
        rw [e5]
        split
        · split <;> simp [btags]
        · rfl
      · exact hsame rfl rfl (by simp [bset, Ne.symm hk])
    | drain j q m _ _ hd =>
      rcases bdeq (s1.q j) (hx j) with ⟨_, e⟩ | ⟨m', l, q', e1, e2, e3, _⟩
      · rw [hd] at e; cases e
      · rw [hd] at e2; cases e2
        by_cases hk : j = k
        · subst hk
          rw [e1, btags_cons] at ih
          simp only [sentBy, acceptedBy, if_true, List.append_nil, bset, e3, List.append_assoc]
          exact ih
        · exact hsame (by simp [sentBy, hk]) rfl (by simp [bset, Ne.symm hk])
    | closeEnd j es' _ _ he => subst he; exact hsame (by split <;> rfl) (by split <;> rfl) rfl
    | userShut' j es' _ _ _ he => subst he; exact hsame (by split <;> rfl) (by split <;> rfl) rfl
    | _ => exact hsame rfl rfl rfl

end StAsio
