import Verif.Lemmas.Broadcast3
/-!
C65: a broadcast is offered once to every socket of the pool, and broadcasts go out in one common order.
C66: functions that go over all sockets come back.
-/
set_option linter.unusedSimpArgs false
set_option autoImplicit false
namespace StAsio

/-- C65: no socket is offered a broadcast twice, whatever is called concurrently, with either kind of mutex. -/
theorem C65_at_most_once {c : BCfg} {as : List BAct} {s : Bc} {es : List BEv} (h : Bc.Run c Bc.init as s es) (k t : Nat) : answers k t es ≤ 1 :=
  (Bc.ans_run h).le t k

/-- The call that returned. -/
theorem Bc.returned_step {c : BCfg} {v w : Bc} {a : BAct} {t : Nat} (h : v.step c a = some (w, [.returned t])) : ∃ x, v.work[t]? = some x ∧ x.pc = .going [] := by
  have ht := Bc.step_cases h
  generalize he : [BEv.returned t] = es at ht
  cases ht <;> first | (simp at he; done) | (grind)

theorem Bc.called_bcast {c : BCfg} {as : List BAct} {s v : Bc} {e1 e2 : List BEv} {as1 : List BAct} {t : Nat} {b : Bool} {x : BWork} (h : Bc.Run c Bc.init as s (e1 ++ e2)) (h1 : Bc.Run c Bc.init as1 v e1) (hc : BEv.called t b ∈ e1 ++ e2)
    (hx : v.work[t]? = some x) : x.job.isBcast = b := by
  have i1 := ((Bc.calls_run h1).called t x.job.isBcast).mpr (by simp [hx])
  have i2 := ((Bc.calls_run h).called t x.job.isBcast).mp (by simp [i1])
  have i3 := ((Bc.calls_run h).called t b).mp hc
  rw [i2] at i3
  exact Option.some.inj i3

/-- C65: when a broadcast returns, every socket that is in the pool then has been offered the message, exactly once. -/
theorem C65_everyone {c : BCfg} {as : List BAct} {s : Bc} {e1 e2 : List BEv} {t k : Nat} (h : Bc.Run c Bc.init as s (e1 ++ .returned t :: e2)) (hb : BEv.called t true ∈ e1 ++ .returned t :: e2)
    (ha : BEv.added k ∈ e1) (hr : BEv.removed k ∉ e1) : answers k t e1 = 1 := by
  obtain ⟨as1, a, as2, v, w, h1, h2, h3, h4⟩ := h.split e1 _ e2 rfl
  obtain ⟨x, hx, hp⟩ := Bc.returned_step h2
  exact (Bc.ans_run h1).asked t x [] hx hp (Bc.called_bcast h h1 hb hx) k (((Bc.pool_run h1).mem k).mpr ⟨ha, hr⟩) (by simp)

/-- C65: when force_shutdown() for all sockets returns, every socket that is in the pool then has been shut down. -/
theorem C65_shut_all {c : BCfg} {as : List BAct} {s : Bc} {e1 e2 : List BEv} {t k : Nat} (h : Bc.Run c Bc.init as s (e1 ++ .returned t :: e2)) (hb : BEv.called t false ∈ e1 ++ .returned t :: e2)
    (ha : BEv.added k ∈ e1) (hr : BEv.removed k ∉ e1) : BEv.shut k ∈ e1 := by
  obtain ⟨as1, a, as2, v, w, h1, h2, h3, h4⟩ := h.split e1 _ e2 rfl
  obtain ⟨x, hx, hp⟩ := Bc.returned_step h2
  have hpl := Bc.pool_run h1
  have hl := (Bc.ans_run h1).shut t x [] hx hp (Bc.called_bcast h h1 hb hx) k ((hpl.mem k).mpr ⟨ha, hr⟩) (by simp)
  rcases hpl.dead k ((hpl.add k).mp ha) hl with hd | hd
  · exact hd
  · exact absurd hd hr

/-- C65: a socket refuses a broadcast only if the message cannot be packed, or if it may not overflow the send buffer and that has reached its limit; it refuses a safe broadcast only if besides its link is not ready. -/
theorem C65_refused_why {c : BCfg} {as : List BAct} {s s' : Bc} {es es' : List BEv} {a : BAct} {k t : Nat} (h : Bc.Run c Bc.init as s es) (hs : s.step c a = some (s', es')) (hr : BEv.refused k t ∈ es') :
    ∃ w safe size packs co prior, s.work[t]? = some w ∧ w.job = .bcast safe size packs co prior ∧ (packs = true → co = false ∧ c.send.limit ≤ sumSize bsz (s.q k).items) ∧ (safe = true → s.ready k = false) := by
  have hx := Bc.exact_run h
  have ht := Bc.step_cases hs
  cases ht with
  | refuse t' k' rest w safe size packs co prior o hw hp hj he hret hsafe =>
    simp only [List.mem_singleton, BEv.refused.injEq] at hr
    obtain ⟨rfl, rfl⟩ := hr
    obtain ⟨o', d, r, e1, e2, e3, e4, e5, e6, e7, e8, e9⟩ := bsend_spec c (s.q k) ⟨some t, size⟩ packs co prior (hx k)
    rw [he] at e1; cases e1
    refine ⟨w, safe, size, packs, co, prior, hw, hj, ?_, hsafe⟩
    intro hpk
    obtain ⟨_, g1, g2⟩ := e7 hret hpk
    refine ⟨g1, ?_⟩
    have := hx k
    unfold Q.Exact at this
    have hle : sumSize bsz (s.q k).items % 2 ^ 64 ≤ sumSize bsz (s.q k).items := Nat.mod_le _ _
    omega
  | closeEnd k' _ _ _ he => subst he; split at hr <;> simp at hr
  | userShut' k' _ _ _ _ he => subst he; split at hr <;> simp at hr
  | _ => simp at hr

/-- C65: unless broadcasts are to go in front, each socket sends what it accepted in the order in which it accepted it, and without ST_ASIO_SHRINK_SEND_BUFFER it leaves none out. -/
theorem C65_fifo {c : BCfg} {as : List BAct} {s : Bc} {es : List BEv} (h : Bc.Run c Bc.init as s es) (hp : ∀ a ∈ as, a.noPrior = true) (k : Nat) :
    (sentBy k es).Sublist (acceptedBy k es) ∧ (c.send.shrink = none → sentBy k es <+: acceptedBy k es) := by
  obtain ⟨h1, h2⟩ := Bc.fifo_run h hp k
  exact ⟨(List.sublist_append_left _ _).trans h1, fun hn => ⟨_, h2 hn⟩⟩

/-- C65: with the default mutex, and unless broadcasts are to go in front, there is one order of all broadcasts that every socket keeps to; a broadcast that was called after another one had returned comes after it in this order. -/
theorem C65_one_order {c : BCfg} (hc : c.shared = false) {as : List BAct} {s : Bc} {es : List BEv} (h : Bc.Run c Bc.init as s es) (hp : ∀ a ∈ as, a.noPrior = true) :
    ∃ order : List Nat, order.Nodup ∧ (∀ k, (sentBy k es).Sublist order) ∧
      ∀ t u e1 e2 b, es = e1 ++ .returned t :: e2 → BEv.called u b ∈ e2 → u ∈ order → [t, u].Sublist order := by
  refine ⟨lockOrder as, (Bc.calls_run h).lknd, fun k => (C65_fifo h hp k).1.trans ((Bc.ord_run hc h).sub k), ?_⟩
  intro t u e1 e2 b he hu hm
  subst he
  obtain ⟨as1, a, as2, v, w, h1, h2, h3, rfl⟩ := h.split e1 _ e2 rfl
  obtain ⟨x, hx, hpx⟩ := Bc.returned_step h2
  have hc1 := Bc.calls_run h1
  have ht : t ∈ lockOrder as1 := (hc1.lk t).mpr (by simp [hx, hpx])
  -- u was not called yet
  obtain ⟨f1, f2, rfl⟩ := List.append_of_mem hu
  obtain ⟨bs1, a', bs2, v', w', g1, g2, g3, g4⟩ := h3.split f1 _ f2 rfl
  have hv' : Bc.Run c Bc.init (as1 ++ [a] ++ bs1) v' ((e1 ++ [.returned t]) ++ f1) := Bc.Run.append (.snoc _ _ _ _ _ _ _ h1 h2) g1
  have hul : v'.work.length = u := by
    have hcs := Bc.step_cases g2
    generalize hes : [BEv.called u b] = es' at hcs
    cases hcs <;> first | (simp at hes; done) | (grind)
  have hnot : u ∉ lockOrder as1 := by
    intro hx1
    have : u ∈ lockOrder (as1 ++ [a] ++ bs1) := by rw [lockOrder_append, lockOrder_append]; simp [hx1]
    have := ((Bc.calls_run hv').lk u).mp this
    rw [List.getElem?_eq_none (by omega)] at this
    cases this
  rw [lockOrder_append] at hm ⊢
  have hu2 : u ∈ lockOrder (a :: as2) := by
    rcases List.mem_append.mp hm with hm | hm
    · exact absurd hm hnot
    · exact hm
  exact List.Sublist.append (List.singleton_sublist.mpr ht) (List.singleton_sublist.mpr hu2)

theorem count_append_le {k t : Nat} {xs ys : List Nat} : (xs ++ ys).count k ≤ t → xs.count k ≤ t := by
  rw [List.count_append]; omega

/-- Messages in the buffer and sent ones were accepted, whether they were to go in front or not. -/
theorem Bc.count_run {c : BCfg} {as : List BAct} {s : Bc} {es : List BEv} (h : Bc.Run c Bc.init as s es) (k t : Nat) : (sentBy k es).count t + (btags (s.q k).items).count t ≤ (acceptedBy k es).count t := by
  induction h with
  | nil => simp [sentBy, acceptedBy, Bc.init, Q.init, btags]
  | snoc s1 s2 as a es es' hr hs ih =>
    have hx := Bc.exact_run hr
    rw [sentBy_append, acceptedBy_append, List.count_append, List.count_append]
    have hless : ∀ d r, (s1.q k).items = d ++ r → (btags r).count t ≤ (btags (s1.q k).items).count t := by
      intro d r e; rw [e, btags_append, List.count_append]; omega
    cases Bc.step_cases hs with
    | accept u j rest w safe size packs co prior o hw hpc hj he hret =>
      obtain ⟨o', d, r, e1, e2, e3, e4, e5, _⟩ := bsend_spec c (s1.q j) ⟨some u, size⟩ packs co prior (hx j)
      rw [he] at e1; cases e1
      by_cases hk : j = k
      · subst hk
        have := hless d r e3
        simp only [sentBy, acceptedBy, if_true, bset, e5, hret, List.count_nil]
        have hq : (btags (if prior = true then (⟨some u, size⟩ : BMsg) :: r else r ++ [⟨some u, size⟩])).count t = (btags r).count t + [u].count t := by
          cases prior <;> simp [btags_cons, btags_append, List.count_append, btags, List.count_cons] <;> omega
        rw [hq]; omega
      · simp only [sentBy, acceptedBy, if_neg hk, bset, if_neg (Ne.symm hk), List.count_nil]; omega
    | retry u j rest w size packs co prior o hw hpc hj he hret =>
      obtain ⟨o', d, r, e1, e2, e3, e4, e5, _⟩ := bsend_spec c (s1.q j) ⟨some u, size⟩ packs co prior (hx j)
      rw [he] at e1; cases e1
      by_cases hk : j = k
      · subst hk
        have := hless d r e3
        simp only [sentBy, acceptedBy, bset, if_true, e5, hret, List.count_nil, Bool.false_eq_true, if_false]; omega
      · simp only [sentBy, acceptedBy, bset, if_neg (Ne.symm hk), List.count_nil]; omega
    | refuse u j rest w safe size packs co prior o hw hpc hj he hret =>
      obtain ⟨o', d, r, e1, e2, e3, e4, e5, _⟩ := bsend_spec c (s1.q j) ⟨some u, size⟩ packs co prior (hx j)
      rw [he] at e1; cases e1
      by_cases hk : j = k
      · subst hk
        have := hless d r e3
        simp only [sentBy, acceptedBy, bset, if_true, e5, hret, List.count_nil, Bool.false_eq_true, if_false]; omega
      · simp only [sentBy, acceptedBy, bset, if_neg (Ne.symm hk), List.count_nil]; omega
    | send j size co prior o he =>
      obtain ⟨o', d, r, e1, e2, e3, e4, e5, _⟩ := bsend_spec c (s1.q j) ⟨none, size⟩ true co prior (hx j)
      rw [he] at e1; cases e1
      by_cases hk : j = k
      · subst hk
        have := hless d r e3
        simp only [sentBy, acceptedBy, bset, if_true, e5, List.count_nil]
        have hq : (btags (if o.ret = true then if prior = true then (⟨none, size⟩ : BMsg) :: r else r ++ [⟨none, size⟩] else r)) = btags r := by
          cases o.ret <;> cases prior <;> simp [btags]
        rw [hq]; omega
      · simp only [sentBy, acceptedBy, bset, if_neg (Ne.symm hk), List.count_nil]; omega
    | drain j q m _ _ hd =>
      rcases bdeq (s1.q j) (hx j) with ⟨_, e⟩ | ⟨m', l, q', e1, e2, e3, _⟩
      · rw [hd] at e; cases e
      · rw [hd] at e2; cases e2
        by_cases hk : j = k
        · subst hk
          rw [e1, btags_cons, List.count_append] at ih
          simp only [sentBy, acceptedBy, if_true, List.append_nil, bset, e3, List.count_nil]; omega
        · simp only [sentBy, acceptedBy, if_neg hk, bset, if_neg (Ne.symm hk), List.count_nil]; omega
    | closeEnd j es' _ _ he => subst he; split <;> simp only [sentBy, acceptedBy, List.count_nil] <;> omega
    | userShut' j es' _ _ _ he => subst he; split <;> simp only [sentBy, acceptedBy, List.count_nil] <;> omega
    | _ => simp only [sentBy, acceptedBy, List.count_nil]; omega

theorem acceptedBy_count (k t : Nat) (es : List BEv) : (acceptedBy k es).count t = es.countP (fun e => decide (e = .accepted k t)) := by
  induction es with
  | nil => rfl
  | cons e es ih =>
    cases e with
    | accepted j u =>
      simp only [acceptedBy, List.countP_cons, BEv.accepted.injEq, decide_eq_true_eq]
      by_cases hj : j = k
      · rw [if_pos hj, List.count_cons, ih]
        by_cases hu : u = t
        · simp [hj, hu]
        · simp [hj, hu]
      · rw [if_neg hj, ih]; simp [hj]
    | _ => simp [acceptedBy, ih]

/-- C65: no socket sends a broadcast twice, or one it did not accept. -/
theorem C65_sent_once {c : BCfg} {as : List BAct} {s : Bc} {es : List BEv} (h : Bc.Run c Bc.init as s es) (k : Nat) :
    (sentBy k es).Nodup ∧ ∀ t ∈ sentBy k es, BEv.accepted k t ∈ es := by
  have hc : ∀ t, (sentBy k es).count t ≤ es.countP (fun e => decide (e = .accepted k t)) := by
    intro t
    have := Bc.count_run h k t
    rw [acceptedBy_count] at this; omega
  constructor
  · rw [List.nodup_iff_count]
    intro t
    refine Nat.le_trans (hc t) (Nat.le_trans ?_ ((Bc.ans_run h).le t k))
    unfold answers
    refine List.countP_mono_left ?_
    intro e _ he
    simp only [decide_eq_true_eq] at he ⊢
    exact Or.inl he
  · intro t ht
    have h1 : 0 < (sentBy k es).count t := List.count_pos_iff.mpr ht
    have h2 := hc t
    have h3 : 0 < es.countP (fun e => decide (e = .accepted k t)) := by omega
    obtain ⟨e, he, hd⟩ := List.countP_pos_iff.mp h3
    simp only [decide_eq_true_eq] at hd
    rw [← hd]; exact he

/-- C65: what a socket accepted and did not discard (ST_ASIO_SHRINK_SEND_BUFFER), it can send as long as its link is ready and a service thread is free, without anything else having to happen. -/
theorem C65_all_sent {c : BCfg} {as : List BAct} {s : Bc} {es : List BEv} (h : Bc.Run c Bc.init as s es) (hp : ∀ a ∈ as, a.noPrior = true) (hn : c.send.shrink = none) (k : Nat) (hr : s.ready k = true) (hf : s.free c = true) :
    ∃ as' s' es', Bc.Run c s as' s' es' ∧ (∀ a ∈ as', a = .drain k) ∧ sentBy k (es ++ es') = acceptedBy k es := by
  have aux : ∀ (n : Nat) (s : Bc), (s.q k).items.length = n → (s.q k).Exact bsz → s.ready k = true → s.free c = true → ∃ as' s' es', Bc.Run c s as' s' es' ∧ (∀ a ∈ as', a = .drain k) ∧ sentBy k es' = btags (s.q k).items := by
    intro n
    induction n with
    | zero =>
      intro s h0 _ _ _
      refine ⟨[], s, [], .nil _, by simp, ?_⟩
      rw [List.length_eq_zero_iff.mp h0]; rfl
    | succ n ih =>
      intro s h0 hx hr hf
      rcases bdeq (s.q k) hx with ⟨h1, _⟩ | ⟨m, l, q', h1, h2, h3, h4⟩
      · rw [h1] at h0; cases h0
      · have hd : s.step c (.drain k) = some ({ s with q := bset s.q k q' }, [.sent k m]) := by
          simp only [Bc.step, hf, hr, h2]; simp
        obtain ⟨as', s', es', k1, k2, k3⟩ := ih { s with q := bset s.q k q' } (by simp only [bset, if_true, h3]; rw [h1] at h0; simpa using h0) (by simp only [bset, if_true]; exact h4) hr hf
        refine ⟨.drain k :: as', s', .sent k m :: es', Bc.Run.append (Bc.Run.one hd) k1, ?_, ?_⟩
        · intro a ha; rcases List.mem_cons.mp ha with rfl | ha
          · rfl
          · exact k2 a ha
        · rw [h1, btags_cons]
          simp only [sentBy, if_true, k3, bset, h3]
  obtain ⟨as', s', es', k1, k2, k3⟩ := aux _ s rfl (Bc.exact_run h k) hr hf
  exact ⟨as', s', es', k1, k2, by rw [sentBy_append, k3]; exact (Bc.fifo_run h hp k).2 hn⟩

/-! ### cases -/

/-- Two service threads, a send buffer of 10 bytes. -/
def bcDefault : BCfg := { shared := false, send := { limit := 10, shrink := none }, threads := 2 }
def bcShared : BCfg := { bcDefault with shared := true }
def bcOne : BCfg := { bcDefault with threads := 1 }

def bcMsg : BJob := .bcast false 4 true false false
def bcPrior : BJob := .bcast false 4 true false true
def bcSafe : BJob := .bcast true 4 true false false

/-- Two sockets, two broadcasts from two threads, the second one gets the mutex first; one socket is closed in between. -/
def bcDemo : List BAct := [.add, .add, .call bcMsg false, .call bcMsg false, .lock 1 [0, 1], .visit 1, .drain 0, .visit 1, .unlock 1, .lock 0 [1, 0], .visit 0, .visit 0, .unlock 0, .brk 1, .closeBegin 1, .drain 0, .closeEnd 1]

theorem C65_demo : ∃ s es, Bc.Run bcDefault Bc.init bcDemo s es ∧ (∀ a ∈ bcDemo, a.noPrior = true) ∧ sentBy 0 es = [1, 0] ∧ sentBy 1 es = [] ∧ acceptedBy 1 es = [1, 0] ∧ answers 1 0 es = 1 :=
  ⟨_, _, Bc.exec_run rfl, by decide +kernel⟩

example : ∃ s es, Bc.Run bcDefault Bc.init [.add, .call .shutAll false, .lock 0 [0], .visit 0, .unlock 0] s es ∧ es = [.added 0, .called 0 false, .shut 0, .returned 0] :=
  ⟨_, _, Bc.exec_run rfl, by decide +kernel⟩

/-- C65, why C65_one_order excludes broadcasts that are to go in front: two sockets send two broadcasts in different orders. -/
theorem C65_fails_prior : ∃ as s es, Bc.Run bcDefault Bc.init as s es ∧ sentBy 0 es = [0, 1] ∧ sentBy 1 es = [1, 0] :=
  ⟨[.add, .add, .call bcMsg false, .lock 0 [0, 1], .visit 0, .visit 0, .unlock 0, .drain 0, .call bcPrior false, .lock 1 [0, 1], .visit 1, .visit 1, .unlock 1, .drain 0, .drain 1, .drain 1], _, _, Bc.exec_run rfl, by decide +kernel⟩

/-- C65, why it needs the default mutex: with a shared_mutex two broadcasts go over the pool at the same time. (The real unordered_map has the same order for both; then one overtakes the other on the way.) -/
theorem C65_fails_shared : ∃ as s es, Bc.Run bcShared Bc.init as s es ∧ (∀ a ∈ as, a.noPrior = true) ∧ (∀ t o, BAct.lock t o ∈ as → o = [0, 1]) ∧ sentBy 0 es = [0, 1] ∧ sentBy 1 es = [1, 0] :=
  ⟨[.add, .add, .call bcMsg false, .call bcMsg false, .lock 0 [0, 1], .visit 0, .lock 1 [0, 1], .visit 1, .visit 1, .unlock 1, .visit 0, .unlock 0, .drain 0, .drain 0, .drain 1, .drain 1], _, _, Bc.exec_run rfl, by decide +kernel,
    by intro t o ho; simp at ho; rcases ho with ⟨_, h⟩ | ⟨_, h⟩ <;> exact h, by decide +kernel⟩

/-- C65: a broadcast returns although a socket that is in the pool and ready all the time did not take the message, and the caller does not learn of it: the function has no result. -/
theorem C65_refused_unnoticed : ∃ as s es, Bc.Run bcDefault Bc.init as s es ∧ BEv.refused 0 0 ∈ es ∧ BEv.returned 0 ∈ es ∧ s.ready 0 = true ∧ 0 ∈ s.pool :=
  ⟨[.add, .send 0 10 false false, .call bcMsg false, .lock 0 [0], .visit 0, .unlock 0], _, _, Bc.exec_run rfl, by decide +kernel⟩

/-! ### C66 -/

/-- Safe broadcasts have messages that can be packed. -/
def BAct.packs : BAct → Bool
  | .call (.bcast true _ packs _ _) _ => packs
  | _ => true

/-- No safe broadcasts. -/
def BAct.noSafe : BAct → Bool
  | .call (.bcast safe ..) _ => !safe
  | _ => true

theorem Bc.jobs_run {c : BCfg} {as : List BAct} {s : Bc} {es : List BEv} (h : Bc.Run c Bc.init as s es) (P : BJob → Prop) (hp : ∀ job inSvc, BAct.call job inSvc ∈ as → P job) :
    ∀ (t : Nat) (w : BWork), s.work[t]? = some w → P w.job := by
  induction h with
  | nil => simp [Bc.init]
  | snoc s1 s2 as a es es' hr hs ih =>
    have ih := ih (fun job inSvc hm => hp job inSvc (by simp [hm]))
    cases Bc.step_cases hs with
    | call job inSvc =>
      intro t w hw
      simp only [List.getElem?_append] at hw
      split at hw
      · exact ih _ _ hw
      · cases hx : t - s1.work.length with
        | zero => rw [hx] at hw; cases hw; exact hp job inSvc (by simp)
        | succ n => rw [hx] at hw; cases hw
    | _ => grind

/-- From a state in which the calls can come to the end, each of them returns. -/
theorem Bc.returns {c : BCfg} {as : List BAct} {s : Bc} {es : List BEv} (h : Bc.Run c Bc.init as s es) (hok : BOk c s) {t : Nat} {b : Bool} (ht : BEv.called t b ∈ es) :
    ∃ as' s' es', Bc.Run c s as' s' es' ∧ (∀ a ∈ as', a.internal = true) ∧ BEv.returned t ∈ es ++ es' := by
  have hc := Bc.calls_run h
  have hself := Bc.self_stopped h
  obtain ⟨w, hw, _⟩ : ∃ w, s.work[t]? = some w ∧ w.job.isBcast = b := by
    have := (hc.called t b).mp ht
    simpa using this
  have hlt : t < s.work.length := by
    rw [List.getElem?_eq_some_iff] at hw; exact hw.1
  cases hp : w.pc with
  | done => exact ⟨[], s, [], .nil _, by simp, by have := (hc.ret t).mpr (by simp [hw, hp]); simp [this]⟩
  | self k rest => have := hself t w k rest hw hp; rw [hok.run] at this; cases this
  | going rest =>
    obtain ⟨as', s', es', h1, h2, _, _, h5⟩ := Bc.finish rest s t w hok hw hp
    exact ⟨as', s', es', h1, h2, by simp [h5]⟩
  | waiting =>
    -- it gets the mutex, and goes on
    have hgo : ∀ (s : Bc), BOk c s → s.work[t]? = some w → s.holds = false → ∃ as' s' es', Bc.Run c s as' s' es' ∧ (∀ a ∈ as', a.internal = true) ∧ BEv.returned t ∈ es' := by
      intro s hok hw hh
      have hlt : t < s.work.length := by
        rw [List.getElem?_eq_some_iff] at hw; exact hw.1
      have hstep : s.step c (.lock t s.pool) = some (s.setPc t w (.going s.pool), []) := by
        simp [Bc.step, hw, hp, hh, List.isPerm_iff, List.Perm.refl]
      have hok1 : BOk c (s.setPc t w (.going s.pool)) := BOk.set hok hw (by rw [hp]; simp) rfl rfl rfl hok.ex
      obtain ⟨as', s', es', h1, h2, _, _, h5⟩ := Bc.finish s.pool (s.setPc t w (.going s.pool)) t { w with pc := .going s.pool } hok1 (by simp only [Bc.setPc]; rw [List.getElem?_set_self hlt]) rfl
      refine ⟨.lock t s.pool :: as', s', es', Bc.Run.append (Bc.Run.one hstep) h1, ?_, h5⟩
      intro a ha; rcases List.mem_cons.mp ha with rfl | ha
      · rfl
      · exact h2 a ha
    -- those who hold the mutex finish first
    have hall : ∀ (n : Nat) (s : Bc), s.work.countP (fun w => w.pc.holds) = n → BOk c s → s.work[t]? = some w → (∀ (u : Nat) (x : BWork) (k : Nat) (rest : List Nat), s.work[u]? = some x → x.pc ≠ .self k rest) →
        ∃ as' s' es', Bc.Run c s as' s' es' ∧ (∀ a ∈ as', a.internal = true) ∧ BEv.returned t ∈ es' := by
      intro n
      induction n with
      | zero =>
        intro s hn hok hw _
        refine hgo s hok hw ?_
        unfold Bc.holds
        rw [List.countP_eq_zero] at hn
        rw [List.any_eq_false]
        exact hn
      | succ n ih =>
        intro s hn hok hw hns
        have : 0 < s.work.countP (fun w => w.pc.holds) := by omega
        obtain ⟨x, hx, hxh⟩ := List.countP_pos_iff.mp this
        obtain ⟨u, hul, hu⟩ := List.getElem_of_mem hx
        have hu : s.work[u]? = some x := by rw [List.getElem?_eq_getElem hul, hu]
        have htu : u ≠ t := by
          intro hh; subst hh; rw [hw] at hu; cases hu; rw [hp] at hxh; cases hxh
        cases hxp : x.pc with
        | waiting => rw [hxp] at hxh; cases hxh
        | done => rw [hxp] at hxh; cases hxh
        | self k rest => exact absurd hxp (hns u x k rest hu)
        | going rest =>
          obtain ⟨as1, s1, es1, h1, h2, h3, h4, _⟩ := Bc.finish rest s u x hok hu hxp
          have hcnt : ∀ (l : List BWork) (u : Nat), l[u]? = some x → (l.set u { x with pc := .done }).countP (fun w => w.pc.holds) + 1 = l.countP (fun w => w.pc.holds) := by
            intro l
            induction l with
            | nil => intro u hu; cases hu
            | cons y l ihl =>
              intro u hu
              cases u with
              | zero => cases hu; simp only [List.set_cons_zero, List.countP_cons, hxh]; simp [BPc.holds]
              | succ u => simp only [List.set_cons_succ, List.countP_cons]; have := ihl u (by simpa using hu); omega
          obtain ⟨as2, s2, es2, k1, k2, k3⟩ := ih s1 (by rw [h4]; have := hcnt s.work u hu; omega) h3 (by rw [h4, List.getElem?_set_ne htu]; exact hw) (by
            intro v y k rest' hv hy
            rw [h4] at hv
            by_cases huv : u = v
            · subst huv
              rw [List.getElem?_set_self hul] at hv
              cases hv; cases hy
            · rw [List.getElem?_set_ne huv] at hv
              exact hns v y k rest' hv hy)
          refine ⟨as1 ++ as2, s2, es1 ++ es2, Bc.Run.append h1 k1, ?_, by simp [k3]⟩
          intro a ha
          rcases List.mem_append.mp ha with ha | ha
          · exact h2 a ha
          · exact k2 a ha
    obtain ⟨as', s', es', h1, h2, h3⟩ := hall _ s rfl hok hw (by
      intro u x k rest hu hx
      have := hself u x k rest hu hx
      rw [hok.run] at this; cases this)
    exact ⟨as', s', es', h1, h2, by simp [h3]⟩

/-- C66, first part: as long as the io_context is not stopped, every call that goes over all sockets, except safe broadcasts, can come back through steps of the library alone, whatever the service threads do. Missing: stopped io_contexts, see C66_fails_stopped. -/
theorem C66_returns_partial {c : BCfg} {as : List BAct} {s : Bc} {es : List BEv} (h : Bc.Run c Bc.init as s es) (hl : 0 < c.send.limit) (hs : s.stopped = false) (hu : ∀ a ∈ as, a.noSafe = true) {t : Nat} {b : Bool} (ht : BEv.called t b ∈ es) :
    ∃ as' s' es', Bc.Run c s as' s' es' ∧ (∀ a ∈ as', a.internal = true) ∧ BEv.returned t ∈ es ++ es' := by
  refine Bc.returns h ⟨Bc.exact_run h, hs, hl, ?_⟩ ht
  intro u w size packs co prior hw hj
  have := Bc.jobs_run h (fun job => ∀ safe size packs co prior, job = .bcast safe size packs co prior → safe = false) (by
    intro job inSvc hm safe size packs co prior hjob
    subst hjob
    simpa [BAct.noSafe] using hu _ hm) u w hw true size packs co prior hj
  cases this

/-- C66, second part: so can safe broadcasts of messages that can be packed, if one service thread is neither within such a call nor waits in on_close() for the pool's mutex. -/
theorem C66_safe_returns_partial {c : BCfg} {as : List BAct} {s : Bc} {es : List BEv} (h : Bc.Run c Bc.init as s es) (hl : 0 < c.send.limit) (hs : s.stopped = false) (hu : ∀ a ∈ as, a.packs = true) (hf : s.busy < c.threads) {t : Nat} {b : Bool} (ht : BEv.called t b ∈ es) :
    ∃ as' s' es', Bc.Run c s as' s' es' ∧ (∀ a ∈ as', a.internal = true) ∧ BEv.returned t ∈ es ++ es' := by
  refine Bc.returns h ⟨Bc.exact_run h, hs, hl, ?_⟩ ht
  intro u w size packs co prior hw hj
  refine ⟨?_, by simp [Bc.free, hs, hf]⟩
  exact Bc.jobs_run h (fun job => ∀ size packs co prior, job = .bcast true size packs co prior → packs = true) (by
    intro job inSvc hm size packs co prior hjob
    subst hjob
    simpa [BAct.packs] using hu _ hm) u w hw size packs co prior hj

example : ∃ s es, Bc.Run bcDefault Bc.init [.add, .add, .send 0 10 false false, .call .shutAll false, .call bcSafe true, .lock 1 [1, 0], .visit 1, .visit 1] s es ∧ s.busy < bcDefault.threads ∧ BEv.called 0 false ∈ es ∧ BEv.called 1 true ∈ es ∧ BEv.returned 1 ∉ es :=
  ⟨_, _, Bc.exec_run rfl, by decide +kernel⟩

/-- C66 is false of a stopped io_context, with either mutex: once it is stopped (service_pump::stop(), or because it ran out of work), force_shutdown() for all sockets - as stop_service() calls it - closes the first one, whose on_close() takes it out of the pool, which needs the mutex that the caller holds. The call never returns, whatever happens. -/
theorem C66_fails_stopped (c : BCfg) : ∃ s es, Bc.Run c Bc.init [.add, .stopIo, .call .shutAll false, .lock 0 [0], .visit 0] s es ∧ ∀ as' s' es', Bc.Run c s as' s' es' → BEv.returned 0 ∉ es ++ es' := by
  obtain ⟨s, es, he⟩ : ∃ s es, Bc.exec c Bc.init [.add, .stopIo, .call .shutAll false, .lock 0 [0], .visit 0] = some (s, es) ∧ s.work[0]? = some { job := .shutAll, inSvc := false, pc := .self 0 [] } ∧ BEv.returned 0 ∉ es := by
    refine ⟨({ n := 1, pool := [0], q := fun _ => Q.init, ready := bset (bset (fun _ => false) 0 true) 0 false, live := bset (bset (fun _ => false) 0 true) 0 false, work := [{ job := BJob.shutAll, inSvc := false, pc := BPc.self 0 [] }], blocked := [], stopped := true } : Bc), [BEv.added 0, BEv.called 0 false, BEv.shut 0], ?_, rfl, by simp⟩
    cases hs : c.shared <;> simp [Bc.exec, Bc.step, Bc.init, Bc.holds, Bc.free, hs, Bc.setPc, Bc.close, bset, BPc.holds, List.isPerm, BJob.isBcast]
  refine ⟨s, es, Bc.exec_run he.1, ?_⟩
  intro as' s' es' hr hm
  rcases List.mem_append.mp hm with hm | hm
  · exact he.2.2 hm
  · exact (Bc.self_stuck hr he.2.1 rfl).2 hm

/-- The user shuts a socket down. (Messages that overflow the send buffer are excluded as well: 2^64 bytes of them would count as none.) -/
def BAct.helps : BAct → Bool
  | .userShut _ => true
  | .send _ _ co _ => co
  | _ => false

/-- A safe broadcast waits for a full send buffer, no service thread is free: nothing of that changes, unless the user shuts the socket down. -/
theorem Bc.full_stuck {c : BCfg} {s s' : Bc} {as : List BAct} {es : List BEv} (h : Bc.Run c s as s' es) (hsh : c.shared = false) (hn : c.send.shrink = none) (hu : ∀ a ∈ as, a.helps = false)
    (hx : ∀ k, (s.q k).Exact bsz) {t k size : Nat} {rest : List Nat} {packs prior inSvc : Bool}
    (hw : s.work[t]? = some { job := .bcast true size packs false prior, inSvc, pc := .going (k :: rest) }) (hone : ∀ u (w : BWork), s.work[u]? = some w → w.pc.holds = true → u = t)
    (hfull : c.send.limit ≤ sumSize bsz (s.q k).items) (hr : s.ready k = true) (hf : s.free c = false)
    (hlt : sumSize bsz (s.q k).items < 2 ^ 64) :
    BEv.returned t ∉ es ∧ s'.work[t]? = some { job := .bcast true size packs false prior, inSvc, pc := .going (k :: rest) } := by
  suffices hinv : BEv.returned t ∉ es ∧ s'.work[t]? = some { job := .bcast true size packs false prior, inSvc, pc := .going (k :: rest) } ∧ (∀ u (w : BWork), s'.work[u]? = some w → w.pc.holds = true → u = t) ∧ s'.q k = s.q k ∧ s'.ready k = true ∧ s'.free c = false by exact ⟨hinv.1, hinv.2.1⟩
  induction h with
  | nil => exact ⟨by simp, hw, hone, rfl, hr, hf⟩
  | snoc s1 s2 as a es es' hrun hs ih =>
    obtain ⟨i1, i2, i3, i4, i5, i6⟩ := ih (fun a ha => hu a (by simp [ha]))
    have ha := hu a (by simp)
    have hh : s1.holds = true := Bc.holds_of i2 rfl
    have htot : c.send.limit ≤ (s.q k).total := by
      have := hx k
      unfold Q.Exact at this
      omega
    have hsend : ∀ o, bsend c (s1.q k) ⟨some t, size⟩ packs false prior = some o → o.ret = false ∧ o.q = s1.q k := by
      intro o ho
      obtain ⟨o', d, r, e1, e2, e3, e4, e5, e6, e7, e8, e9⟩ := bsend_spec c (s1.q k) ⟨some t, size⟩ packs false prior (by rw [i4]; exact hx k)
      rw [ho] at e1; cases e1
      exact e9 rfl hn (by rw [i4]; exact htot)
    cases Bc.step_cases hs with
    | add hb => rw [hh] at hb; cases hb
    | remove j hb => rw [hh] at hb; cases hb
    | closeEnd j es' hb => rw [hh] at hb; cases hb
    | closeBegin j hb => rw [i6] at hb; cases hb
    | drain j q m hb => rw [i6] at hb; cases hb
    | brk j hb => rw [i6] at hb; cases hb
    | userShut j => cases ha
    | userShut' j => cases ha
    | call job inSvc' hb =>
      refine ⟨by simp [i1], ?_, ?_, i4, i5, ?_⟩
      · simp only
        rw [List.getElem?_append_left (by rw [List.getElem?_eq_some_iff] at i2; exact i2.1)]; exact i2
      · intro u w hw' hp'
        simp only [List.getElem?_append] at hw'
        split at hw'
        · exact i3 u w hw' hp'
        · cases hx : u - s1.work.length with
          | zero => rw [hx] at hw'; cases hw'; cases hp'
          | succ n => rw [hx] at hw'; cases hw'
      · unfold Bc.free Bc.busy at i6 ⊢
        simp only [List.countP_append]
        simp only [Bool.and_eq_false_iff, decide_eq_false_iff_not, Bool.not_eq_false'] at i6 ⊢
        rcases i6 with i6 | i6
        · left; omega
        · right; exact i6
    | lock u order w hw' hp' _ hb =>
      rcases hb with hb | hb
      · rw [hsh] at hb; cases hb
      · rw [hh] at hb; cases hb
    | accept u j rest' w safe size' packs' co prior' o hw' hp' hj he hret =>
      have := i3 u w hw' (by rw [hp']; rfl)
      subst this
      rw [i2] at hw'; cases hw'; cases hp'; cases hj
      rw [(hsend o he).1] at hret; cases hret
    | retry u j rest' w size' packs' co prior' o hw' hp' hj he hret =>
      have := i3 u w hw' (by rw [hp']; rfl)
      subst this
      rw [i2] at hw'; cases hw'; cases hp'; cases hj
      refine ⟨by simp [i1], i2, i3, ?_, i5, i6⟩
      simp only [bset, if_true]
      rw [(hsend o he).2, i4]
    | refuse u j rest' w safe size' packs' co prior' o hw' hp' hj he hret hsafe =>
      have := i3 u w hw' (by rw [hp']; rfl)
      subst this
      rw [i2] at hw'; cases hw'; cases hp'; cases hj
      rw [i5] at hsafe
      cases hsafe rfl
    | shut u j rest' w hw' hp' hj =>
      have := i3 u w hw' (by rw [hp']; rfl)
      subst this
      rw [i2] at hw'; cases hw'; cases hj
    | shutSelf u j rest' w hw' hp' hj =>
      have := i3 u w hw' (by rw [hp']; rfl)
      subst this
      rw [i2] at hw'; cases hw'; cases hj
    | skip u j rest' w hw' hp' hj =>
      have := i3 u w hw' (by rw [hp']; rfl)
      subst this
      rw [i2] at hw'; cases hw'; cases hj
    | unlock u w hw' hp' =>
      have := i3 u w hw' (by rw [hp']; rfl)
      subst this
      rw [i2] at hw'; cases hw'; cases hp'
    | send j size' co prior' o he =>
      refine ⟨by simp [i1], i2, i3, ?_, i5, i6⟩
      simp only [bset]
      split
      · rename_i hjk
        subst hjk
        have hco : co = false := ha
        subst hco
        obtain ⟨o', d, r, e1, e2, e3, e4, e5, e6, e7, e8, e9⟩ := bsend_spec c (s1.q k) ⟨none, size'⟩ true false prior' (by rw [i4]; exact hx k)
        rw [he] at e1; cases e1
        rw [(e9 rfl hn (by rw [i4]; exact htot)).2, i4]
      · exact i4
    | stopIo =>
      refine ⟨by simp [i1], i2, i3, i4, i5, ?_⟩
      simp [Bc.free]

/-- C66 is false of safe broadcasts: the caller holds the pool's mutex while it waits for a full send buffer. If meanwhile another link breaks, the only service thread waits in on_close() for the mutex, nothing is sent any more, and the call does not return, unless the user shuts the full socket down. -/
theorem C66_fails_threads : ∃ as s es, Bc.Run bcOne Bc.init as s es ∧ s.stopped = false ∧ BEv.called 0 true ∈ es ∧ (∀ a ∈ as, a.packs = true) ∧ ∀ as' s' es', Bc.Run bcOne s as' s' es' → (∀ a ∈ as', a.helps = false) → BEv.returned 0 ∉ es ++ es' := by
  refine ⟨[.add, .add, .send 0 10 false false, .call bcSafe false, .lock 0 [0, 1], .visit 0, .brk 1, .closeBegin 1], _, _, Bc.exec_run rfl, by decide +kernel, by decide +kernel, by decide +kernel, ?_⟩
  intro as' s' es' hr hu hm
  rcases List.mem_append.mp hm with hm | hm
  · revert hm; decide +kernel
  · refine (Bc.full_stuck (t := 0) (k := 0) hr rfl rfl hu ?_ rfl ?_ (by decide +kernel) (by decide +kernel) (by decide +kernel) (by decide +kernel)).1 hm
    · exact Bc.exact_run (c := bcOne) (as := [.add, .add, .send 0 10 false false, .call bcSafe false, .lock 0 [0, 1], .visit 0, .brk 1, .closeBegin 1]) (Bc.exec_run rfl)
    · intro u w hw _
      match u with
      | 0 => rfl
      | u + 1 => cases hw

/-- A safe broadcast of a message that cannot be packed is at a socket that stays ready: it stays there. -/
theorem Bc.unpackable_stuck {c : BCfg} {s s' : Bc} {as : List BAct} {es : List BEv} (h : Bc.Run c s as s' es) (hsh : c.shared = false) {t k size : Nat} {rest : List Nat} {co prior inSvc : Bool}
    (hu : .brk k ∉ as ∧ .userShut k ∉ as) (hw : s.work[t]? = some { job := .bcast true size false co prior, inSvc, pc := .going (k :: rest) }) (hone : ∀ u (w : BWork), s.work[u]? = some w → w.pc.holds = true → u = t)
    (hx : ∀ k, (s.q k).Exact bsz) (hr : s.ready k = true) :
    BEv.returned t ∉ es ∧ s'.work[t]? = some { job := .bcast true size false co prior, inSvc, pc := .going (k :: rest) } ∧ s'.holds = true := by
  suffices hinv : BEv.returned t ∉ es ∧ s'.work[t]? = some { job := .bcast true size false co prior, inSvc, pc := .going (k :: rest) } ∧ (∀ u (w : BWork), s'.work[u]? = some w → w.pc.holds = true → u = t) ∧ s'.ready k = true ∧ ∀ k, (s'.q k).Exact bsz by exact ⟨hinv.1, hinv.2.1, Bc.holds_of hinv.2.1 rfl⟩
  induction h with
  | nil => exact ⟨by simp, hw, hone, hr, hx⟩
  | snoc s1 s2 as a es es' hrun hs ih =>
    obtain ⟨i1, i2, i3, i4, i5⟩ := ih ⟨fun hm => hu.1 (by simp [hm]), fun hm => hu.2 (by simp [hm])⟩
    have hh : s1.holds = true := Bc.holds_of i2 rfl
    have hown : ∀ (u : Nat) (w : BWork) (rest' : List Nat) (j : Nat), s1.work[u]? = some w → w.pc = .going (j :: rest') → u = t ∧ w = { job := .bcast true size false co prior, inSvc, pc := .going (k :: rest) } ∧ j = k := by
      intro u w rest' j hw' hp'
      have := i3 u w hw' (by rw [hp']; rfl)
      subst this
      rw [i2] at hw'; cases hw'; cases hp'; exact ⟨rfl, rfl, rfl⟩
    cases Bc.step_cases hs with
    | add hb => rw [hh] at hb; cases hb
    | remove j hb => rw [hh] at hb; cases hb
    | closeEnd j es' hb => rw [hh] at hb; cases hb
    | closeBegin j hb => exact ⟨by simp [i1], i2, i3, i4, i5⟩
    | drain j q m _ _ hd =>
      refine ⟨by simp [i1], i2, i3, i4, bset_exact i5 ?_⟩
      rcases bdeq (s1.q j) (i5 j) with ⟨_, e⟩ | ⟨m', l, q', _, e, _, e'⟩
      · rw [hd] at e; cases e
      · rw [hd] at e; cases e; exact e'
    | brk j hb =>
      have : k ≠ j := fun he => hu.1 (by simp [he])
      exact ⟨by simp [i1], i2, i3, by simp only [bset, if_neg this]; exact i4, i5⟩
    | userShut j =>
      have : k ≠ j := fun he => hu.2 (by simp [he])
      exact ⟨by simp [i1], i2, i3, by simp only [bset, if_neg this]; exact i4, i5⟩
    | userShut' j es' _ _ hb => rw [hh] at hb; cases hb
    | call job inSvc' hb =>
      refine ⟨by simp [i1], ?_, ?_, i4, i5⟩
      · simp only
        rw [List.getElem?_append_left (by rw [List.getElem?_eq_some_iff] at i2; exact i2.1)]; exact i2
      · intro u w hw' hp'
        simp only [List.getElem?_append] at hw'
        split at hw'
        · exact i3 u w hw' hp'
        · cases hx : u - s1.work.length with
          | zero => rw [hx] at hw'; cases hw'; cases hp'
          | succ n => rw [hx] at hw'; cases hw'
    | lock u order w hw' hp' _ hb =>
      rcases hb with hb | hb
      · rw [hsh] at hb; cases hb
      · rw [hh] at hb; cases hb
    | accept u j rest' w safe size' packs' co' prior' o hw' hp' hj he hret =>
      obtain ⟨rfl, rfl, rfl⟩ := hown u w rest' j hw' hp'
      cases hj
      obtain ⟨o', d, r, e1, e2, e3, e4, e5, e6, _⟩ := bsend_spec c (s1.q j) ⟨some u, size⟩ false co prior (i5 j)
      rw [he] at e1; cases e1
      cases e6 hret
    | retry u j rest' w size' packs' co' prior' o hw' hp' hj he hret =>
      refine ⟨by simp [i1], i2, i3, i4, bset_exact i5 ?_⟩
      obtain ⟨o', d, r, e1, e2, _⟩ := bsend_spec c (s1.q j) ⟨some u, size'⟩ packs' co' prior' (i5 j)
      rw [he] at e1; cases e1; exact e2
    | refuse u j rest' w safe size' packs' co' prior' o hw' hp' hj he hret hsafe =>
      obtain ⟨rfl, rfl, rfl⟩ := hown u w rest' j hw' hp'
      cases hj
      rw [i4] at hsafe
      cases hsafe rfl
    | shut u j rest' w hw' hp' hj => obtain ⟨rfl, rfl, rfl⟩ := hown u w rest' j hw' hp'; cases hj
    | shutSelf u j rest' w hw' hp' hj => obtain ⟨rfl, rfl, rfl⟩ := hown u w rest' j hw' hp'; cases hj
    | skip u j rest' w hw' hp' hj => obtain ⟨rfl, rfl, rfl⟩ := hown u w rest' j hw' hp'; cases hj
    | unlock u w hw' hp' =>
      have := i3 u w hw' (by rw [hp']; rfl)
      subst this
      rw [i2] at hw'; cases hw'; cases hp'
    | send j size' co' prior' o he =>
      refine ⟨by simp [i1], i2, i3, i4, bset_exact i5 ?_⟩
      obtain ⟨o', d, r, e1, e2, _⟩ := bsend_spec c (s1.q j) ⟨none, size'⟩ true co' prior' (i5 j)
      rw [he] at e1; cases e1; exact e2
    | stopIo => exact ⟨by simp [i1], i2, i3, i4, i5⟩

/-- C66 is false of safe broadcasts of messages that cannot be packed: the call does not return, and holds the pool's mutex, as long as the first socket's link stays up. -/
theorem C66_fails_unpackable : ∃ as s es, Bc.Run bcDefault Bc.init as s es ∧ s.stopped = false ∧ s.busy = 0 ∧ BEv.called 0 true ∈ es ∧
    ∀ as' s' es', Bc.Run bcDefault s as' s' es' → .brk 0 ∉ as' ∧ .userShut 0 ∉ as' → BEv.returned 0 ∉ es ++ es' ∧ s'.holds = true := by
  refine ⟨[.add, .call (.bcast true 4 false false false) false, .lock 0 [0]], _, _, Bc.exec_run rfl, by decide +kernel, by decide +kernel, by decide +kernel, ?_⟩
  intro as' s' es' hr hu
  have := Bc.unpackable_stuck (t := 0) (k := 0) hr rfl hu rfl (by
    intro u w hw _
    match u with
    | 0 => rfl
    | u + 1 => cases hw) (Bc.exact_run (c := bcDefault) (as := [.add, .call (.bcast true 4 false false false) false, .lock 0 [0]]) (Bc.exec_run rfl)) (by decide +kernel)
  refine ⟨?_, this.2.2⟩
  intro hm
  rcases List.mem_append.mp hm with hm | hm
  · revert hm; decide +kernel
  · exact this.1 hm

end StAsio
