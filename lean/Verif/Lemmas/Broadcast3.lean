import Verif.Lemmas.Broadcast2
/-!
The order of broadcasts, and going over all sockets to the end.
-/
set_option linter.unusedSimpArgs false
set_option autoImplicit false
namespace StAsio

/-- One call holds the mutex, and it is the last that got it. -/
structure BOrd (s : Bc) (as : List BAct) (es : List BEv) : Prop where
  last : ∀ (t : Nat) (w : BWork), s.work[t]? = some w → w.pc.holds = true → (lockOrder as).getLast? = some t
  rest : ∀ (t : Nat) (w : BWork) (rest : List Nat), s.work[t]? = some w → w.pc = .going rest → ∀ k ∈ rest, (acceptedBy k es).Sublist (lockOrder as).dropLast
  sub : ∀ k, (acceptedBy k es).Sublist (lockOrder as)

set_option maxHeartbeats 4000000 in
theorem Bc.ord_run {c : BCfg} {s : Bc} {as : List BAct} {es : List BEv} (hc : c.shared = false) (h : Bc.Run c Bc.init as s es) : BOrd s as es := by
  induction h with
  | nil => constructor <;> simp [Bc.init, acceptedBy]
  | snoc s1 s2 as a es es' hr hs ih =>
    have hnd : ∀ (t : Nat) (w : BWork) (rest : List Nat), s1.work[t]? = some w → w.pc = .going rest → rest.Nodup := (Bc.ans_run hr).nodup
    obtain ⟨i1, i2, i3⟩ := ih
    have ht := Bc.step_cases hs
    have hf : ∀ {t : Nat} {w : BWork}, s1.holds = false → s1.work[t]? = some w → w.pc.holds = true → False := by
      intro t w hh hw hp
      rw [Bc.holds_false hh hw] at hp; cases hp
    have hg : ∀ (w : BWork) (rest : List Nat), w.pc = .going rest → w.pc.holds = true := by intro w rest h; rw [h]; rfl
    have hlo := lockOrder_snoc as a
    have hgen : lockOrder (as ++ [a]) = lockOrder as → (∀ k, acceptedBy k (es ++ es') = acceptedBy k es) →
        (∀ (t : Nat) (w : BWork), s2.work[t]? = some w → w.pc.holds = true → ∃ w', s1.work[t]? = some w' ∧ w'.pc.holds = true ∧ ∀ rest, w.pc = .going rest → ∃ rest', w'.pc = .going rest' ∧ ∀ k ∈ rest, k ∈ rest') → BOrd s2 (as ++ [a]) (es ++ es') := by
      intro h1 h2 h3
      constructor
      · intro t w hw hp
        obtain ⟨w', a1, a2, _⟩ := h3 t w hw hp
        rw [h1]; exact i1 t w' a1 a2
      · intro t w rest hw hp k hk
        obtain ⟨w', a1, a2, a3⟩ := h3 t w hw (hg w rest hp)
        obtain ⟨rest', a4, a5⟩ := a3 rest hp
        rw [h1, h2]; exact i2 t w' rest' a1 a4 k (a5 k hk)
      · intro k; rw [h1, h2]; exact i3 k
    have hsame : s2.work = s1.work → (∀ (t : Nat) (w : BWork), s2.work[t]? = some w → w.pc.holds = true → ∃ w', s1.work[t]? = some w' ∧ w'.pc.holds = true ∧ ∀ rest, w.pc = .going rest → ∃ rest', w'.pc = .going rest' ∧ ∀ k ∈ rest, k ∈ rest') := by
      intro h t w hw hp
      rw [h] at hw
      exact ⟨w, hw, hp, fun rest h => ⟨rest, h, fun k hk => hk⟩⟩
    have hset : ∀ (t : Nat) (w : BWork) (pc : BPc), s1.work[t]? = some w → s2.work = s1.work.set t { w with pc } → (pc.holds = true → w.pc.holds = true) →
        (∀ rest, pc = .going rest → ∃ rest', w.pc = .going rest' ∧ ∀ k ∈ rest, k ∈ rest') → (∀ (t : Nat) (w : BWork), s2.work[t]? = some w → w.pc.holds = true → ∃ w', s1.work[t]? = some w' ∧ w'.pc.holds = true ∧ ∀ rest, w.pc = .going rest → ∃ rest', w'.pc = .going rest' ∧ ∀ k ∈ rest, k ∈ rest') := by
      intro t w pc hw h2 h3 h4 t' w' hw' hp'
      rw [h2] at hw'
      by_cases htt : t = t'
      · subst htt
        have hlt : t < s1.work.length := by
          rw [List.getElem?_eq_some_iff] at hw; exact hw.1
        rw [List.getElem?_set_self hlt] at hw'
        cases hw'
        exact ⟨w, hw, h3 hp', h4⟩
      · rw [List.getElem?_set_ne htt] at hw'
        exact ⟨w', hw', hp', fun rest h => ⟨rest, h, fun k hk => hk⟩⟩
    clear hs
    cases ht with
    | lock t order w hw hp hpm hor =>
      have hh : s1.holds = false := by rcases hor with h | h
                                       · rw [hc] at h; cases h
                                       · exact h
      have hlo : lockOrder (as ++ [.lock t order]) = lockOrder as ++ [t] := hlo
      have hlt : t < s1.work.length := by
        rw [List.getElem?_eq_some_iff] at hw; exact hw.1
      constructor
      · intro t' w' hw' hp'
        rw [hlo, List.getLast?_append]
        by_cases htt : t = t'
        · subst htt; rfl
        · simp only [List.getElem?_set_ne htt] at hw'
          exact absurd hp' (by intro hx; exact hf hh hw' hx)
      · intro t' w' rest hw' hp' k hk
        rw [hlo, List.dropLast_concat, acceptedBy_append]
        simpa [acceptedBy] using i3 k
      · intro k
        rw [hlo, acceptedBy_append]
        exact List.Sublist.append (i3 k) (by simp [acceptedBy])
    | accept t k rest w safe size packs co prior o hw hp hj _ _ =>
      have hl := i1 t w hw (hg w _ hp)
      have hr2 := i2 t w _ hw hp
      have hkr := hnd t w _ hw hp
      have hlt : t < s1.work.length := by
        rw [List.getElem?_eq_some_iff] at hw; exact hw.1
      have hlo : lockOrder (as ++ [.visit t]) = lockOrder as := by rw [lockOrder_snoc]; simp
      have hap : ∀ j, acceptedBy j (es ++ [.accepted k t]) = acceptedBy j es ++ (if k = j then [t] else []) := by
        intro j; rw [acceptedBy_append]; simp only [acceptedBy]
      constructor
      · intro t' w' hw' hp'
        rw [hlo]
        by_cases htt : t = t'
        · subst htt; exact hl
        · simp only [List.getElem?_set_ne htt] at hw'
          exact i1 t' w' hw' hp'
      · intro t' w' rest' hw' hp' j hj'
        rw [hlo, hap]
        have htt : t = t' := by
          by_cases htt : t = t'
          · exact htt
          · simp only [List.getElem?_set_ne htt] at hw'
            have := i1 t' w' hw' (hg w' rest' hp')
            rw [hl] at this; cases this; rfl
        subst htt
        simp only [List.getElem?_set_self hlt] at hw'
        cases hw'
        cases hp'
        have hjk : k ≠ j := by
          intro hx; subst hx
          rw [List.nodup_cons] at hkr; exact hkr.1 hj'
        rw [if_neg hjk, List.append_nil]
        exact hr2 j (by simp [hj'])
      · intro j
        rw [hlo, hap]
        by_cases hjk : k = j
        · subst hjk
          rw [if_pos rfl]
          have h1 := hr2 k (by simp)
          have h2 : lockOrder as = (lockOrder as).dropLast ++ [t] := by
            have hne : lockOrder as ≠ [] := by intro hx; rw [hx] at hl; cases hl
            rw [List.getLast?_eq_some_getLast hne] at hl
            cases hl
            exact (List.dropLast_concat_getLast hne).symm
          rw [h2]
          exact List.Sublist.append h1 (List.Sublist.refl _)
        · rw [if_neg hjk, List.append_nil]; exact i3 j
    | call job inSvc =>
      refine hgen (by rw [lockOrder_snoc]; simp) (by intro k; rw [acceptedBy_append]; simp [acceptedBy]) ?_
      intro t w hw hp
      simp only [List.getElem?_append] at hw
      split at hw
      · exact ⟨w, hw, hp, fun rest h => ⟨rest, h, fun k hk => hk⟩⟩
      · cases hx : t - s1.work.length with
        | zero => rw [hx] at hw; cases hw; cases hp
        | succ n => rw [hx] at hw; cases hw
    | refuse t k rest w safe size packs co prior o hw hp hj _ _ =>
      refine hgen (by rw [lockOrder_snoc]; simp) (by intro k; rw [acceptedBy_append]; simp [acceptedBy]) (hset t w _ hw rfl (fun _ => hg w _ hp) ?_)
      intro r hr; cases hr; exact ⟨_, hp, fun k hk => by simp [hk]⟩
    | shut t k rest w hw hp hj _ _ =>
      refine hgen (by rw [lockOrder_snoc]; simp) (by intro k; rw [acceptedBy_append]; simp [acceptedBy]) (hset t w _ hw rfl (fun _ => hg w _ hp) ?_)
      intro r hr; cases hr; exact ⟨_, hp, fun k hk => by simp [hk]⟩
    | shutSelf t k rest w hw hp hj _ _ =>
      refine hgen (by rw [lockOrder_snoc]; simp) (by intro k; rw [acceptedBy_append]; simp [acceptedBy]) (hset t w _ hw rfl (fun _ => hg w _ hp) ?_)
      intro r hr; cases hr
    | skip t k rest w hw hp hj _ =>
      refine hgen (by rw [lockOrder_snoc]; simp) (by intro k; rw [acceptedBy_append]; simp [acceptedBy]) (hset t w _ hw rfl (fun _ => hg w _ hp) ?_)
      intro r hr; cases hr; exact ⟨_, hp, fun k hk => by simp [hk]⟩
    | unlock t w hw hp =>
      refine hgen (by rw [lockOrder_snoc]; simp) (by intro k; rw [acceptedBy_append]; simp [acceptedBy]) (hset t w _ hw rfl (fun h => by cases h) ?_)
      intro r hr; cases hr
    | closeEnd j es' _ _ he => subst he; exact hgen (by rw [lockOrder_snoc]; simp) (by intro k; rw [acceptedBy_append]; split <;> simp [acceptedBy]) (hsame rfl)
    | userShut' j es' _ _ _ he => subst he; exact hgen (by rw [lockOrder_snoc]; simp) (by intro k; rw [acceptedBy_append]; split <;> simp [acceptedBy]) (hsame rfl)
    | _ => exact hgen (by rw [lockOrder_snoc]; simp) (by intro k; rw [acceptedBy_append]; simp [acceptedBy]) (hsame rfl)

/-! ### splitting runs at an event -/

theorem BTr.short {c : BCfg} {s s' : Bc} {a : BAct} {es : List BEv} (h : BTr c s a s' es) : es.length ≤ 1 := by
  cases h <;> first | (simp; done) | (subst_vars; split <;> simp)

theorem Bc.Run.split {c : BCfg} {s u : Bc} {as : List BAct} {es : List BEv} (h : Bc.Run c s as u es) :
    ∀ e1 e e2, es = e1 ++ e :: e2 → ∃ as1 a as2 v w, Bc.Run c s as1 v e1 ∧ v.step c a = some (w, [e]) ∧ Bc.Run c w as2 u e2 ∧ as = as1 ++ a :: as2 := by
  induction h with
  | nil => intro e1 e e2 h; simp at h
  | snoc s1 s2 as a es es' hr hs ih =>
    intro e1 e e2 he
    have hl := (Bc.step_cases hs).short
    match es', hl with
    | [], _ =>
      rw [List.append_nil] at he
      obtain ⟨as1, b, as2, v, w, h1, h2, h3, h4⟩ := ih e1 e e2 he
      refine ⟨as1, b, as2 ++ [a], v, w, h1, h2, ?_, by rw [h4]; simp⟩
      have := Bc.Run.snoc _ _ _ _ _ _ _ h3 hs
      simpa using this
    | [x], _ =>
      rcases List.eq_nil_or_concat e2 with h0 | ⟨e2', y, h0⟩
      · subst h0
        have := List.append_inj' he rfl
        obtain ⟨rfl, h5⟩ := this
        cases h5
        exact ⟨as, a, [], s1, s2, hr, hs, .nil _, rfl⟩
      · subst h0
        have he' : es ++ [x] = (e1 ++ e :: e2') ++ [y] := by rw [he]; simp
        obtain ⟨h6, h7⟩ := List.append_inj' he' rfl
        cases h7
        obtain ⟨as1, b, as2, v, w, h1, h2, h3, h4⟩ := ih e1 e e2' h6
        refine ⟨as1, b, as2 ++ [a], v, w, h1, h2, ?_, by rw [h4]; simp⟩
        have := Bc.Run.snoc _ _ _ _ _ _ _ h3 hs
        simpa using this

/-! ### going over all sockets to the end -/

/-- Steps of the library, not of its users. -/
def BAct.internal : BAct → Bool
  | .lock .. | .visit _ | .unlock _ | .drain _ => true
  | _ => false

theorem countP_set_le {α : Type} (p : α → Bool) : ∀ (l : List α) (i : Nat) (a b : α), l[i]? = some b → (p a = true → p b = true) → (l.set i a).countP p ≤ l.countP p := by
  intro l
  induction l with
  | nil => intro i a b h; cases h
  | cons x l ih =>
    intro i a b h hp
    cases i with
    | zero =>
      cases h
      simp only [List.set_cons_zero, List.countP_cons]
      split
      · rw [if_pos (hp ‹_›)]; exact Nat.le_refl _
      · omega
    | succ i =>
      simp only [List.set_cons_succ, List.countP_cons]
      have := ih i a b (by simpa using h) hp
      omega

/-- What is needed to come to the end. -/
structure BOk (c : BCfg) (s : Bc) : Prop where
  ex : ∀ k, (s.q k).Exact bsz
  run : s.stopped = false
  limit : 0 < c.send.limit
  safe : ∀ (t : Nat) (w : BWork) (size : Nat) (packs co prior : Bool), s.work[t]? = some w → w.job = .bcast true size packs co prior → packs = true ∧ s.free c = true

theorem BOk.set {c : BCfg} {s s' : Bc} {t : Nat} {w : BWork} {pc : BPc} (h : BOk c s) (hw : s.work[t]? = some w) (hp : w.pc ≠ .done) (hs : s'.work = s.work.set t { w with pc }) (hb : s'.blocked = s.blocked)
    (hr : s'.stopped = s.stopped) (hx : ∀ k, (s'.q k).Exact bsz) : BOk c s' := by
  refine ⟨hx, by rw [hr]; exact h.run, h.limit, ?_⟩
  intro t' w' size packs co prior hw' hj
  rw [hs] at hw'
  have hfree : s.free c = true → s'.free c = true := by
    unfold Bc.free Bc.busy
    rw [hs, hb, hr]
    intro hf
    have := countP_set_le (fun w : BWork => w.inSvc && decide (w.pc ≠ .done)) s.work t { w with pc } w hw (by
      simp only [Bool.and_eq_true, decide_eq_true_eq]
      intro hh; exact ⟨hh.1, hp⟩)
    simp only [Bool.and_eq_true, decide_eq_true_eq] at hf ⊢
    exact ⟨by omega, hf.2⟩
  by_cases htt : t = t'
  · subst htt
    have hlt : t < s.work.length := by
      rw [List.getElem?_eq_some_iff] at hw; exact hw.1
    rw [List.getElem?_set_self hlt] at hw'
    cases hw'
    have := h.safe t w size packs co prior hw hj
    exact ⟨this.1, hfree this.2⟩
  · rw [List.getElem?_set_ne htt] at hw'
    have := h.safe t' w' size packs co prior hw' hj
    exact ⟨this.1, hfree this.2⟩

theorem bset_exact {f : Nat → Q BMsg} {k : Nat} {q : Q BMsg} (h : ∀ k, (f k).Exact bsz) (hq : q.Exact bsz) : ∀ j, (bset f k q j).Exact bsz := by
  intro j; unfold bset; split
  · exact hq
  · exact h j

theorem Bc.visit_bcast {c : BCfg} {s : Bc} {t k size : Nat} {rest : List Nat} {w : BWork} {safe packs co prior : Bool} {o : SendOut BMsg} (hw : s.work[t]? = some w) (hp : w.pc = .going (k :: rest))
    (hj : w.job = .bcast safe size packs co prior) (hb : bsend c (s.q k) ⟨some t, size⟩ packs co prior = some o) :
    s.step c (.visit t) = if o.ret then some (({ s with q := bset s.q k o.q } : Bc).setPc t w (.going rest), [.accepted k t])
      else if safe ∧ s.ready k then some ({ s with q := bset s.q k o.q }, []) else some (({ s with q := bset s.q k o.q } : Bc).setPc t w (.going rest), [.refused k t]) := by
  simp only [Bc.step, hw, hp, hj, hb, Option.bind_eq_bind, Option.bind_some, Option.pure_def]

/-- One socket. -/
theorem Bc.pass_one {c : BCfg} : ∀ (n : Nat) (s : Bc) (t k : Nat) (rest : List Nat) (w : BWork), (s.q k).items.length = n → BOk c s → s.work[t]? = some w → w.pc = .going (k :: rest) →
    ∃ as' s' es', Bc.Run c s as' s' es' ∧ (∀ a ∈ as', a.internal = true) ∧ BOk c s' ∧ s'.work = s.work.set t { w with pc := .going rest } := by
  intro n
  induction n with
  | zero =>
    intro s t k rest w hn hok hw hp
    have hnd : w.pc ≠ .done := by rw [hp]; simp
    obtain ⟨job, hj⟩ : ∃ job, w.job = job := ⟨_, rfl⟩
    cases job with
    | shutAll =>
      cases hl : s.live k with
      | true =>
        refine ⟨[.visit t], (s.close k).setPc t w (.going rest), [.shut k], Bc.Run.one (by simp [Bc.step, hw, hp, hj, hl, hok.run]), by simp [BAct.internal], ?_, rfl⟩
        exact BOk.set hok hw hnd rfl rfl rfl hok.ex
      | false =>
        refine ⟨[.visit t], s.setPc t w (.going rest), [], Bc.Run.one (by simp [Bc.step, hw, hp, hj, hl]), by simp [BAct.internal], ?_, rfl⟩
        exact BOk.set hok hw hnd rfl rfl rfl hok.ex
    | bcast safe size packs co prior =>
      obtain ⟨o, d, r, e1, e2, e3, e4, e5, e6, e7, e8, e9⟩ := bsend_spec c (s.q k) ⟨some t, size⟩ packs co prior (hok.ex k)
      have hv := Bc.visit_bcast hw hp hj e1
      have hz : (s.q k).total = 0 := by
        have := hok.ex k
        unfold Q.Exact at this
        have h0 : (s.q k).items = [] := List.length_eq_zero_iff.mp hn
        rw [h0, sumSize_nil] at this; exact this
      by_cases hr : o.ret = true
      · rw [if_pos hr] at hv
        exact ⟨[.visit t], _, _, Bc.Run.one hv, by simp [BAct.internal], BOk.set hok hw hnd rfl rfl rfl (bset_exact hok.ex e2), rfl⟩
      · rw [if_neg hr] at hv
        have hsf : safe = false := by
          cases safe with
          | false => rfl
          | true =>
            have := (hok.safe t w size packs co prior hw hj).1
            exact absurd (e8 this (Or.inr (by have := hok.limit; omega))) hr
        rw [if_neg (by simp [hsf])] at hv
        exact ⟨[.visit t], _, _, Bc.Run.one hv, by simp [BAct.internal], BOk.set hok hw hnd rfl rfl rfl (bset_exact hok.ex e2), rfl⟩
  | succ n ih =>
    intro s t k rest w hn hok hw hp
    have hnd : w.pc ≠ .done := by rw [hp]; simp
    obtain ⟨job, hj⟩ : ∃ job, w.job = job := ⟨_, rfl⟩
    cases job with
    | shutAll =>
      cases hl : s.live k with
      | true =>
        refine ⟨[.visit t], (s.close k).setPc t w (.going rest), [.shut k], Bc.Run.one (by simp [Bc.step, hw, hp, hj, hl, hok.run]), by simp [BAct.internal], ?_, rfl⟩
        exact BOk.set hok hw hnd rfl rfl rfl hok.ex
      | false =>
        refine ⟨[.visit t], s.setPc t w (.going rest), [], Bc.Run.one (by simp [Bc.step, hw, hp, hj, hl]), by simp [BAct.internal], ?_, rfl⟩
        exact BOk.set hok hw hnd rfl rfl rfl hok.ex
    | bcast safe size packs co prior =>
      obtain ⟨o, d, r, e1, e2, e3, e4, e5, e6, e7, e8, e9⟩ := bsend_spec c (s.q k) ⟨some t, size⟩ packs co prior (hok.ex k)
      have hv := Bc.visit_bcast hw hp hj e1
      by_cases hr : o.ret = true
      · rw [if_pos hr] at hv
        exact ⟨[.visit t], _, _, Bc.Run.one hv, by simp [BAct.internal], BOk.set hok hw hnd rfl rfl rfl (bset_exact hok.ex e2), rfl⟩
      · rw [if_neg hr] at hv
        by_cases hsr : safe = true ∧ s.ready k = true
        · obtain ⟨rfl, hrd⟩ := hsr
          have hfree := (hok.safe t w size packs co prior hw hj).2
          rcases bdeq (s.q k) (hok.ex k) with ⟨h0, _⟩ | ⟨m, l, q', h1, h2, h3, h4⟩
          · rw [h0] at hn; cases hn
          · have hd : s.step c (.drain k) = some ({ s with q := bset s.q k q' }, [.sent k m]) := by
              simp only [Bc.step, hfree, hrd, h2]; simp
            have hok' : BOk c { s with q := bset s.q k q' } := ⟨bset_exact hok.ex h4, hok.run, hok.limit, hok.safe⟩
            obtain ⟨as', s', es', k1, k2, k3, k4⟩ := ih { s with q := bset s.q k q' } t k rest w (by simp only [bset, if_true, h3]; rw [h1] at hn; simpa using hn) hok' hw hp
            exact ⟨.drain k :: as', s', .sent k m :: es', Bc.Run.append (Bc.Run.one hd) k1, by intro a ha; rcases List.mem_cons.mp ha with rfl | ha; rfl; exact k2 a ha, k3, k4⟩
        · rw [if_neg hsr] at hv
          exact ⟨[.visit t], _, _, Bc.Run.one hv, by simp [BAct.internal], BOk.set hok hw hnd rfl rfl rfl (bset_exact hok.ex e2), rfl⟩

/-- All of them. -/
theorem Bc.finish {c : BCfg} : ∀ (rest : List Nat) (s : Bc) (t : Nat) (w : BWork), BOk c s → s.work[t]? = some w → w.pc = .going rest →
    ∃ as' s' es', Bc.Run c s as' s' es' ∧ (∀ a ∈ as', a.internal = true) ∧ BOk c s' ∧ s'.work = s.work.set t { w with pc := .done } ∧ BEv.returned t ∈ es' := by
  intro rest
  induction rest with
  | nil =>
    intro s t w hok hw hp
    exact ⟨[.unlock t], s.setPc t w .done, [.returned t], Bc.Run.one (by simp [Bc.step, hw, hp]), by simp [BAct.internal], BOk.set hok hw (by rw [hp]; simp) rfl rfl rfl hok.ex, rfl, by simp⟩
  | cons k rest ih =>
    intro s t w hok hw hp
    obtain ⟨as1, s1, es1, h1, h2, h3, h4⟩ := Bc.pass_one _ s t k rest w rfl hok hw hp
    have hlt : t < s.work.length := by
      rw [List.getElem?_eq_some_iff] at hw; exact hw.1
    obtain ⟨as2, s2, es2, k1, k2, k3, k4, k5⟩ := ih s1 t { w with pc := .going rest } h3 (by rw [h4, List.getElem?_set_self hlt]) rfl
    refine ⟨as1 ++ as2, s2, es1 ++ es2, Bc.Run.append h1 k1, ?_, k3, by rw [k4, h4, List.set_set], by simp [k5]⟩
    intro a ha
    rcases List.mem_append.mp ha with ha | ha
    · exact h2 a ha
    · exact k2 a ha

/-- A call that waits for the mutex for itself waits for ever. -/
theorem Bc.self_stuck {c : BCfg} {s s' : Bc} {as : List BAct} {es : List BEv} (h : Bc.Run c s as s' es) {t k : Nat} {rest : List Nat} {w : BWork} (hw : s.work[t]? = some w) (hp : w.pc = .self k rest) :
    s'.work[t]? = some w ∧ BEv.returned t ∉ es := by
  induction h with
  | nil => exact ⟨hw, by simp⟩
  | snoc s1 s2 as a es es' hr hs ih =>
    obtain ⟨i1, i2⟩ := ih
    cases Bc.step_cases hs <;> grind

/-- What it takes that a call gets stuck in the middle. -/
theorem Bc.self_stopped {c : BCfg} {s : Bc} {as : List BAct} {es : List BEv} (h : Bc.Run c Bc.init as s es) : ∀ (t : Nat) (w : BWork) (k : Nat) (rest : List Nat), s.work[t]? = some w → w.pc = .self k rest → s.stopped = true := by
  induction h with
  | nil => simp [Bc.init]
  | snoc s1 s2 as a es es' hr hs ih =>
    cases Bc.step_cases hs with
    | call job inSvc =>
      intro t w k rest hw hp
      simp only [List.getElem?_append] at hw
      split at hw
      · exact ih _ _ _ _ hw hp
      · cases hx : t - s1.work.length with
        | zero => rw [hx] at hw; cases hw; cases hp
        | succ n => rw [hx] at hw; cases hw
    | _ => grind

end StAsio
