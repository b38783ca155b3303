import Verif.Lemmas.Queue
import Verif.Model.Broadcast
/-!
Lemmas about broadcasting.
-/
set_option linter.unusedSimpArgs false
set_option autoImplicit false
namespace StAsio

theorem Bc.Run.append {c : BCfg} {s t u : Bc} {as bs : List BAct} {es fs : List BEv} (h1 : Bc.Run c s as t es) (h2 : Bc.Run c t bs u fs) : Bc.Run c s (as ++ bs) u (es ++ fs) := by
  induction h2 with
  | nil => simpa using h1
  | snoc s1 s2 bs a fs fs' _ hs ih => rw [← List.append_assoc, ← List.append_assoc]; exact .snoc _ _ _ _ _ _ _ ih hs

theorem Bc.Run.one {c : BCfg} {s t : Bc} {a : BAct} {es : List BEv} (h : s.step c a = some (t, es)) : Bc.Run c s [a] t es := by
  have := Bc.Run.snoc (c := c) s s t [] a [] es (.nil s) h
  simpa using this

theorem Bc.exec_run {c : BCfg} {as : List BAct} : ∀ {s t : Bc} {es : List BEv}, Bc.exec c s as = some (t, es) → Bc.Run c s as t es := by
  induction as with
  | nil =>
    intro s t es he
    simp only [Bc.exec, Option.some.injEq, Prod.mk.injEq] at he
    obtain ⟨rfl, rfl⟩ := he
    exact .nil _
  | cons a as ih =>
    intro s t es he
    simp only [Bc.exec] at he
    cases hs : s.step c a with
    | none => rw [hs] at he; simp at he
    | some p =>
      obtain ⟨v, ys⟩ := p
      rw [hs] at he
      cases hx : Bc.exec c v as with
      | none => simp [hx] at he
      | some q =>
        obtain ⟨w, zs⟩ := q
        simp [hx] at he
        obtain ⟨rfl, rfl⟩ := he
        exact Bc.Run.append (Bc.Run.one hs) (ih hx)

/-! ### the send buffer -/

theorem bdeclared (src : List BMsg) : Q.declared bsz src (getSizeInByte bsz src) = some (sumSize bsz src % 2 ^ 64) := by
  unfold Q.declared
  rw [getSizeInByte_eq]
  split <;> simp

theorem bdirect (q : Q BMsg) (m : BMsg) (prior : Bool) (h : q.Exact bsz) :
    ∃ q', doDirectList bsz q [m] prior = some q' ∧ q'.items = (if prior then m :: q.items else q.items ++ [m]) ∧ q'.Exact bsz := by
  unfold doDirectList
  cases prior with
  | true =>
    refine ⟨_, by simp only [if_true, Q.moveInFront, bdeclared]; rfl, rfl, ?_⟩
    unfold Q.Exact at *
    simp only [List.cons_append, List.nil_append, sumSize_cons, sumSize_nil, w64add, h]; omega
  | false =>
    refine ⟨_, by simp only [Bool.false_eq_true, if_false, Q.moveIn, bdeclared]; rfl, rfl, ?_⟩
    unfold Q.Exact at *
    simp only [sumSize_append, sumSize_cons, sumSize_nil, w64add, h]; omega

theorem bshrink (c : SendCfg) (q : Q BMsg) (h : q.Exact bsz) :
    (shrinkSendBuffer bsz c q).1.Exact bsz ∧ (∃ d, q.items = d ++ (shrinkSendBuffer bsz c q).1.items ∧ (c.shrink = none → d = [])) ∧
    ((shrinkSendBuffer bsz c q).2.2 = false → (shrinkSendBuffer bsz c q).1 = q ∧ c.limit ≤ q.total) ∧
    (q.total < c.limit → (shrinkSendBuffer bsz c q).2.2 = true) ∧
    (c.shrink = none → c.limit ≤ q.total → (shrinkSendBuffer bsz c q).2.2 = false) := by
  unfold shrinkSendBuffer
  cases hc : c.shrink with
  | none => simp [sendBufferAvailable, h]
  | some f =>
    simp only
    by_cases h1 : q.total < c.limit
    · simp [h1, h]
    · by_cases h2 : f q.total = 0
      · simp only [if_neg h1, if_pos h2]; simp [h]; omega
      · simp only [if_neg h1, if_neg h2]
        obtain ⟨q', r, e1, e2, e3⟩ := Q.step_spec bsz h (.moveOutBytes [] (f q.total)) trivial
        simp only [Q.step, Option.some.injEq, Prod.mk.injEq] at e1
        obtain ⟨rfl, rfl⟩ := e1
        obtain ⟨d, _, e4, _⟩ := e3
        exact ⟨e2, ⟨d, e4, by simp⟩, by simp, by simp, by simp⟩

theorem bsend_spec (c : BCfg) (q : Q BMsg) (m : BMsg) (packs co prior : Bool) (h : q.Exact bsz) :
    ∃ o d r, bsend c q m packs co prior = some o ∧ o.q.Exact bsz ∧ q.items = d ++ r ∧ (c.send.shrink = none → d = []) ∧
      o.q.items = (if o.ret then (if prior then m :: r else r ++ [m]) else r) ∧
      (o.ret = true → packs = true) ∧
      (o.ret = false → packs = true → o.q = q ∧ co = false ∧ c.send.limit ≤ q.total) ∧
      (packs = true → co = true ∨ q.total < c.send.limit → o.ret = true) ∧
      (co = false → c.send.shrink = none → c.send.limit ≤ q.total → o.ret = false ∧ o.q = q) := by
  unfold bsend sendCall
  cases co with
  | true =>
    simp only [if_true]
    cases packs with
    | true =>
      obtain ⟨q', h1, h2, h3⟩ := bdirect q m prior h
      exact ⟨_, [], q.items, by simp only [if_true, h1, Option.map_some]; rfl, h3, rfl, fun _ => rfl, by simp [h2], by simp, by simp, by simp, by simp⟩
    | false => exact ⟨_, [], q.items, rfl, h, rfl, fun _ => rfl, by simp, by simp, by simp, by simp, by simp⟩
  | false =>
    obtain ⟨k1, ⟨d, k2, k3⟩, k4, k5, k6⟩ := bshrink c.send q h
    simp only [Bool.false_eq_true, if_false]
    cases hr : (shrinkSendBuffer bsz c.send q).2.2 with
    | false =>
      rw [hr] at k4 k5 k6
      refine ⟨_, d, (shrinkSendBuffer bsz c.send q).1.items, rfl, k1, k2, k3, by simp, by simp, ?_, ?_, ?_⟩
      · intro _ _; exact ⟨(k4 rfl).1, trivial, (k4 rfl).2⟩
      · intro _ hx; rcases hx with hx | hx
        · simp at hx
        · exact absurd (k5 hx) (by simp)
      · intro _ _ _; exact ⟨rfl, (k4 rfl).1⟩
    | true =>
      rw [hr] at k4 k5 k6
      cases packs with
      | true =>
        obtain ⟨q', h1, h2, h3⟩ := bdirect (shrinkSendBuffer bsz c.send q).1 m prior k1
        exact ⟨_, d, (shrinkSendBuffer bsz c.send q).1.items, by simp only [if_true, h1, Option.map_some]; rfl, h3, k2, k3, by simp [h2], by simp, by simp, by simp, fun _ a b => absurd (k6 a b) (by simp)⟩
      | false =>
        refine ⟨_, d, (shrinkSendBuffer bsz c.send q).1.items, rfl, k1, k2, k3, by simp, by simp, by simp, by simp, fun _ a b => absurd (k6 a b) (by simp)⟩

theorem bdeq (q : Q BMsg) (h : q.Exact bsz) :
    (q.items = [] ∧ q.tryDequeue bsz = (q, none)) ∨ ∃ m l q', q.items = m :: l ∧ q.tryDequeue bsz = (q', some m) ∧ q'.items = l ∧ q'.Exact bsz := by
  cases hi : q.items with
  | nil => left; simp [Q.tryDequeue, hi]
  | cons m l =>
    right
    refine ⟨m, l, { items := l, total := w64sub q.total (bsz m) }, rfl, by simp [Q.tryDequeue, hi], rfl, ?_⟩
    unfold Q.Exact at *
    simp only [h, hi, sumSize_cons]
    unfold w64sub; omega

/-! ### traces -/

theorem sentBy_append (k : Nat) (xs ys : List BEv) : sentBy k (xs ++ ys) = sentBy k xs ++ sentBy k ys := by
  induction xs with
  | nil => rfl
  | cons e xs ih => cases e <;> simp only [List.cons_append, sentBy, ih] <;> split <;> simp [ih]

theorem acceptedBy_append (k : Nat) (xs ys : List BEv) : acceptedBy k (xs ++ ys) = acceptedBy k xs ++ acceptedBy k ys := by
  induction xs with
  | nil => rfl
  | cons e xs ih => cases e <;> simp only [List.cons_append, acceptedBy, ih] <;> split <;> simp [ih]

theorem answers_append (k t : Nat) (xs ys : List BEv) : answers k t (xs ++ ys) = answers k t xs + answers k t ys := by
  simp [answers, List.countP_append]

/-- The tags in a send buffer. -/
def btags (l : List BMsg) : List Nat := l.flatMap (fun m => m.tag.toList)

theorem btags_append (l r : List BMsg) : btags (l ++ r) = btags l ++ btags r := by simp [btags, List.flatMap_append]
theorem btags_cons (m : BMsg) (l : List BMsg) : btags (m :: l) = m.tag.toList ++ btags l := by simp [btags]

/-- The order in which the calls got the mutex. -/
def lockOrder (as : List BAct) : List Nat := as.filterMap (fun a => match a with | .lock t _ => some t | _ => none)

theorem lockOrder_append (as bs : List BAct) : lockOrder (as ++ bs) = lockOrder as ++ lockOrder bs := by simp [lockOrder, List.filterMap_append]

/-! ### the steps, one by one -/

inductive BTr (c : BCfg) (s : Bc) : BAct → Bc → List BEv → Prop where
  | add : s.holds = false → BTr c s .add { s with n := s.n + 1, pool := s.n :: s.pool, ready := bset s.ready s.n true, live := bset s.live s.n true } [.added s.n]
  | remove (k : Nat) : s.holds = false → k ∈ s.pool → BTr c s (.remove k) { s with pool := s.pool.filter (· ≠ k), live := bset s.live k false, ready := bset s.ready k false } [.removed k]
  | closeBegin (k : Nat) : s.free c = true → s.live k = false → k < s.n → BTr c s (.closeBegin k) { s with blocked := k :: s.blocked } []
  | closeEnd (k : Nat) (es : List BEv) : s.holds = false → k ∈ s.blocked → es = (if k ∈ s.pool then [.removed k] else []) →
      BTr c s (.closeEnd k) { s with pool := s.pool.filter (· ≠ k), blocked := s.blocked.filter (· ≠ k) } es
  | call (job : BJob) (inSvc : Bool) : (inSvc = true → s.free c = true) → BTr c s (.call job inSvc) { s with work := s.work ++ [{ job, inSvc, pc := .waiting }] } [.called s.work.length job.isBcast]
  | lock (t : Nat) (order : List Nat) (w : BWork) : s.work[t]? = some w → w.pc = .waiting → order.Perm s.pool → (c.shared = true ∨ s.holds = false) →
      BTr c s (.lock t order) { s with work := s.work.set t { w with pc := .going order } } []
  | accept (t k : Nat) (rest : List Nat) (w : BWork) (safe : Bool) (size : Nat) (packs co prior : Bool) (o : SendOut BMsg) : s.work[t]? = some w → w.pc = .going (k :: rest) →
      w.job = .bcast safe size packs co prior → bsend c (s.q k) ⟨some t, size⟩ packs co prior = some o → o.ret = true →
      BTr c s (.visit t) { s with q := bset s.q k o.q, work := s.work.set t { w with pc := .going rest } } [.accepted k t]
  | retry (t k : Nat) (rest : List Nat) (w : BWork) (size : Nat) (packs co prior : Bool) (o : SendOut BMsg) : s.work[t]? = some w → w.pc = .going (k :: rest) →
      w.job = .bcast true size packs co prior → bsend c (s.q k) ⟨some t, size⟩ packs co prior = some o → o.ret = false → s.ready k = true →
      BTr c s (.visit t) { s with q := bset s.q k o.q } []
  | refuse (t k : Nat) (rest : List Nat) (w : BWork) (safe : Bool) (size : Nat) (packs co prior : Bool) (o : SendOut BMsg) : s.work[t]? = some w → w.pc = .going (k :: rest) →
      w.job = .bcast safe size packs co prior → bsend c (s.q k) ⟨some t, size⟩ packs co prior = some o → o.ret = false → (safe = true → s.ready k = false) →
      BTr c s (.visit t) { s with q := bset s.q k o.q, work := s.work.set t { w with pc := .going rest } } [.refused k t]
  | shut (t k : Nat) (rest : List Nat) (w : BWork) : s.work[t]? = some w → w.pc = .going (k :: rest) → w.job = .shutAll → s.live k = true → s.stopped = false →
      BTr c s (.visit t) { s with live := bset s.live k false, ready := bset s.ready k false, work := s.work.set t { w with pc := .going rest } } [.shut k]
  | shutSelf (t k : Nat) (rest : List Nat) (w : BWork) : s.work[t]? = some w → w.pc = .going (k :: rest) → w.job = .shutAll → s.live k = true → s.stopped = true →
      BTr c s (.visit t) { s with live := bset s.live k false, ready := bset s.ready k false, work := s.work.set t { w with pc := .self k rest } } [.shut k]
  | skip (t k : Nat) (rest : List Nat) (w : BWork) : s.work[t]? = some w → w.pc = .going (k :: rest) → w.job = .shutAll → s.live k = false →
      BTr c s (.visit t) { s with work := s.work.set t { w with pc := .going rest } } []
  | unlock (t : Nat) (w : BWork) : s.work[t]? = some w → w.pc = .going [] → BTr c s (.unlock t) { s with work := s.work.set t { w with pc := .done } } [.returned t]
  | send (k size : Nat) (co prior : Bool) (o : SendOut BMsg) : bsend c (s.q k) ⟨none, size⟩ true co prior = some o → BTr c s (.send k size co prior) { s with q := bset s.q k o.q } []
  | drain (k : Nat) (q : Q BMsg) (m : BMsg) : s.free c = true → s.ready k = true → (s.q k).tryDequeue bsz = (q, some m) → BTr c s (.drain k) { s with q := bset s.q k q } [.sent k m]
  | brk (k : Nat) : s.free c = true → s.live k = true → BTr c s (.brk k) { s with live := bset s.live k false, ready := bset s.ready k false } [.shut k]
  | userShut (k : Nat) : s.live k = true → s.stopped = false → BTr c s (.userShut k) { s with live := bset s.live k false, ready := bset s.ready k false } [.shut k]
  | userShut' (k : Nat) (es : List BEv) : s.live k = true → s.stopped = true → s.holds = false → es = (if k ∈ s.pool then [.removed k] else [.shut k]) →
      BTr c s (.userShut k) { s with pool := s.pool.filter (· ≠ k), live := bset s.live k false, ready := bset s.ready k false } es
  | stopIo : BTr c s .stopIo { s with stopped := true } []

theorem Bc.holds_of {s : Bc} {t : Nat} {w : BWork} (h : s.work[t]? = some w) (hp : w.pc.holds = true) : s.holds = true := by
  unfold Bc.holds
  rw [List.any_eq_true]
  exact ⟨w, List.mem_of_getElem? h, hp⟩

theorem Bc.step_cases {c : BCfg} {s s' : Bc} {a : BAct} {es : List BEv} (h : s.step c a = some (s', es)) : BTr c s a s' es := by
  cases a with
  | add =>
    simp only [Bc.step] at h
    split at h
    · cases h
    · cases h; exact .add (by simpa using ‹¬ s.holds = true›)
  | remove k =>
    simp only [Bc.step] at h
    split at h
    · cases h
    · rename_i hc; cases h; exact .remove k (by grind) (by grind)
  | closeBegin k =>
    simp only [Bc.step] at h
    split at h
    · cases h
    · rename_i hc; cases h; exact .closeBegin k (by grind) (by grind) (by grind)
  | closeEnd k =>
    simp only [Bc.step] at h
    split at h
    · cases h
    · rename_i hc; cases h; exact .closeEnd k _ (by grind) (by grind) rfl
  | call job inSvc =>
    simp only [Bc.step] at h
    split at h
    · cases h
    · rename_i hc; cases h; exact .call job inSvc (by grind)
  | lock t order =>
    simp only [Bc.step] at h
    split at h
    · cases h
    · split at h
      · rename_i w hw hc; cases h; exact .lock t order w hw hc.1 (List.isPerm_iff.mp hc.2.1) hc.2.2
      · cases h
  | visit t =>
    simp only [Bc.step] at h
    split at h
    · cases h
    · rename_i w hw
      split at h
      · rename_i k rest hp
        split at h
        · rename_i safe size packs co prior hj
          cases hb : bsend c (s.q k) ⟨some t, size⟩ packs co prior with
          | none => simp [hb] at h
          | some o =>
            simp only [hb, Option.bind_eq_bind, Option.bind_some, Option.pure_def] at h
            split at h
            · cases h; exact .accept t k rest w safe size packs co prior o hw hp hj hb ‹_›
            · split at h
              · rename_i h1 h2
                cases h
                have : safe = true := h2.1
                subst this
                exact .retry t k rest w size packs co prior o hw hp hj hb (by simpa using h1) h2.2
              · rename_i h1 h2
                cases h; exact .refuse t k rest w safe size packs co prior o hw hp hj hb (by simpa using h1) (by grind)
        · rename_i hj
          split at h
          · split at h
            · cases h; exact .shutSelf t k rest w hw hp hj ‹_› ‹_›
            · rename_i h1 h2; cases h; exact .shut t k rest w hw hp hj ‹_› (by simpa using h2)
          · rename_i h1; cases h; exact .skip t k rest w hw hp hj (by simpa using h1)
      · rename_i k rest hp
        rw [if_pos (Bc.holds_of hw (by rw [hp]; rfl))] at h
        cases h
      · cases h
  | unlock t =>
    simp only [Bc.step] at h
    split at h
    · cases h
    · split at h
      · rename_i w hw hc; cases h; exact .unlock t w hw hc
      · cases h
  | send k size co prior =>
    simp only [Bc.step] at h
    cases hb : bsend c (s.q k) ⟨none, size⟩ true co prior with
    | none => simp [hb] at h
    | some o =>
      simp only [hb, Option.bind_eq_bind, Option.bind_some, Option.pure_def] at h
      cases h; exact .send k size co prior o hb
  | drain k =>
    simp only [Bc.step] at h
    split at h
    · cases h
    · split at h
      · cases h
      · rename_i hc q m hd; cases h; exact .drain k q m (by grind) (by grind) hd
  | brk k =>
    simp only [Bc.step] at h
    split at h
    · cases h
    · rename_i hc; cases h; exact .brk k (by grind) (by grind)
  | userShut k =>
    simp only [Bc.step] at h
    split at h
    · cases h
    · split at h
      · split at h
        · cases h
        · cases h; exact .userShut' k _ (by grind) (by grind) (by grind) rfl
      · cases h; exact .userShut k (by grind) (by grind)
  | stopIo => simp only [Bc.step] at h; cases h; exact .stopIo

end StAsio
