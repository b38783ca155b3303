import Verif.Spec.Window
import Verif.Lemmas.Window
set_option autoImplicit false
namespace StAsio

theorem dirEvs_append (d : Bool) (a b : List DEv) : dirEvs d (a ++ b) = dirEvs d a ++ dirEvs d b := by
  induction a with
  | nil => rfl
  | cons e a ih => cases e <;> simp only [List.cons_append, dirEvs] <;> split <;> simp [ih]

theorem ownItems_append (d : Bool) (a b : List DEv) : ownItems d (a ++ b) = ownItems d a ++ ownItems d b := by
  induction a with
  | nil => rfl
  | cons e a ih =>
    rcases e with ⟨d', b', _ | _⟩ | ⟨d', m, ok⟩ <;> simp only [List.cons_append, ownItems]
    · exact ih
    · split <;> simp [ih]
    · exact ih

theorem sentAnswers_append (d : Bool) (a b : List DEv) : sentAnswers d (a ++ b) = sentAnswers d a ++ sentAnswers d b := by
  induction a with
  | nil => rfl
  | cons e a ih =>
    rcases e with ⟨d', b', _ | _⟩ | ⟨d', m, ok⟩ <;> simp only [List.cons_append, sentAnswers]
    · split <;> simp [ih]
    · exact ih
    · exact ih

theorem dirEvs_same (d o : Bool) (l : List PEv) : dirEvs d (l.map (DEv.of d o)) = l := by
  induction l with
  | nil => rfl
  | cons e l ih => cases e <;> simp [DEv.of, dirEvs, ih]

theorem dirEvs_other (d d' o : Bool) (h : d' ≠ d) (l : List PEv) : dirEvs d (l.map (DEv.of d' o)) = [] := by
  induction l with
  | nil => rfl
  | cons e l ih => cases e <;> simp [DEv.of, dirEvs, ih, h]

theorem sentAnswers_own (d d' : Bool) (l : List PEv) : sentAnswers d (l.map (DEv.of d' true)) = [] := by
  induction l with
  | nil => rfl
  | cons e l ih => cases e <;> simp [DEv.of, sentAnswers, ih]

theorem sentAnswers_same (d : Bool) (l : List PEv) : sentAnswers d (l.map (DEv.of d false)) = sentItems l := by
  induction l with
  | nil => rfl
  | cons e l ih => cases e <;> simp [DEv.of, sentAnswers, ih, sentItems]

theorem sentAnswers_other (d d' : Bool) (h : d' ≠ d) (l : List PEv) : sentAnswers d (l.map (DEv.of d' false)) = [] := by
  induction l with
  | nil => rfl
  | cons e l ih => cases e <;> simp [DEv.of, sentAnswers, ih, h]

theorem Duo.get_set (s : Duo) (d : Bool) (p : Pipe) : (s.set d p).get d = p := by cases d <;> rfl

theorem Duo.get_set_ne (s : Duo) {d e : Bool} (h : e ≠ d) (p : Pipe) : (s.set d p).get e = s.get e := by
  cases d <;> cases e <;> first | rfl | exact absurd rfl h

structure Duo.Good (c : Cfg) (batch limit : Nat) (s : Duo) (es : List DEv) : Prop where
  good : ∀ d, (s.get d).Good c true batch limit (dirEvs d es)
  tie : ∀ d, sentAnswers (!d) es = handledItems (dirEvs d es)

theorem Duo.init_good (c : Cfg) (hv : c.Valid) (batch limit : Nat) (raw1 raw2 : Bytes) (hraw1 : raw1.length = c.bufSize) (hraw2 : raw2.length = c.bufSize) :
    ∃ s, Duo.init c raw1 raw2 = some s ∧ s.Good c batch limit [] := by
  obtain ⟨u, u1, u2⟩ := Pipe.init_good c hv true batch limit raw1 hraw1
  obtain ⟨d, d1, d2⟩ := Pipe.init_good c hv true batch limit raw2 hraw2
  refine ⟨⟨u, d⟩, by simp [Duo.init, u1, d1], ?_, ?_⟩
  · intro d
    cases d
    · exact d2
    · exact u2
  · intro d; rfl

theorem Duo.step_good {c : Cfg} (hv : c.Valid) (hr : c.bufSize < 256 ^ c.headLen) {nd cwf : Bool} {batch limit sendLimit W : Nat} {s s' : Duo} {a : DAct} {es fs : List DEv} (h : s.Good c batch limit es)
    (ha : a.Honest) (hs : s.step W c nd cwf batch limit sendLimit a = some (s', fs)) : s'.Good c batch limit (es ++ fs) := by
  cases a with
  | pipe dir a =>
    simp only [Duo.step] at hs
    split at hs
    · cases hs
    · next hret =>
      rw [Option.map_eq_some_iff] at hs
      obtain ⟨⟨t, tes⟩, h1, h2⟩ := hs
      cases h2
      have hq : handledItems tes = [] := (Pipe.step_quiet h1).1 (by simp only [not_or] at hret; simpa using hret.1)
      refine ⟨?_, ?_⟩
      · intro d
        rw [dirEvs_append]
        by_cases hd : d = dir
        · subst hd
          rw [Duo.get_set, dirEvs_same]
          exact Pipe.step_good hv hr (h.good d) ha h1
        · rw [Duo.get_set_ne s hd, dirEvs_other d dir true (Ne.symm hd), List.append_nil]
          exact h.good d
      · intro d
        rw [sentAnswers_append, dirEvs_append, sentAnswers_own, List.append_nil, handledItems_append, h.tie d]
        by_cases hd : d = dir
        · subst hd
          rw [dirEvs_same, hq, List.append_nil]
        · rw [dirEvs_other d dir true (Ne.symm hd)]
          simp [handledItems]
  | relay dir =>
    simp only [Duo.step] at hs
    split at hs
    · cases hs
    · next m hm =>
      have hnd : (!dir) ≠ dir := by cases dir <;> decide
      split at hs
      · next hacc =>
        have hpack : (SendCall.one m).pack c nd ≠ some none := by
          intro hp
          simp only [Echo.accepts, hp] at hacc
          split at hacc <;> simp at hacc
        obtain ⟨d, d1, d2, d3, d4⟩ := Pipe.step_send_one hv hr (cwf := cwf) (h.good (!dir)) m hpack
        rw [d1] at hs
        simp only [Option.bind_eq_bind, Option.bind_some] at hs
        rw [Option.bind_eq_some_iff] at hs
        obtain ⟨⟨u, ues⟩, u1, u2⟩ := hs
        cases u2
        obtain ⟨q1, q2, q3⟩ := Pipe.step_ret hm u1
        subst q1
        refine ⟨?_, ?_⟩
        · intro e
          rw [dirEvs_append, dirEvs_append]
          by_cases he : e = dir
          · subst he
            rw [Duo.get_set, dirEvs_other e (!e) false hnd, dirEvs_same, List.nil_append]
            exact Pipe.step_good hv hr (h.good e) (a := .rx (.ret true)) trivial u1
          · have he' : e = !dir := by cases e <;> cases dir <;> first | rfl | exact absurd rfl he
            subst he'
            rw [Duo.get_set_ne _ hnd, Duo.get_set, dirEvs_same, dirEvs_other (!dir) dir false (Ne.symm hnd), List.append_nil]
            exact Pipe.step_good hv hr (h.good (!dir)) (a := .send (.one m) true) trivial d1
        · intro e
          rw [sentAnswers_append, sentAnswers_append, dirEvs_append, dirEvs_append, handledItems_append, handledItems_append, h.tie e]
          congr 1
          by_cases he : e = dir
          · subst he
            rw [sentAnswers_same, sentAnswers_other (!e) e (Ne.symm hnd), dirEvs_other e (!e) false hnd, dirEvs_same]
            simp [sentItems, handledItems]
          · have he' : e = !dir := by cases e <;> cases dir <;> first | rfl | exact absurd rfl he
            subst he'
            rw [Bool.not_not, sentAnswers_other dir (!dir) hnd, sentAnswers_same, dirEvs_same, dirEvs_other (!dir) dir false (Ne.symm hnd)]
            simp [sentItems, handledItems]
      · simp only [Option.bind_eq_bind] at hs
        rw [Option.bind_eq_some_iff] at hs
        obtain ⟨⟨u, ues⟩, u1, u2⟩ := hs
        cases u2
        obtain ⟨q1, q2, q3⟩ := Pipe.step_ret hm u1
        subst q1
        refine ⟨?_, ?_⟩
        · intro e
          rw [dirEvs_append]
          by_cases he : e = dir
          · subst he
            rw [Duo.get_set, dirEvs_same]
            exact Pipe.step_good hv hr (h.good e) (a := .rx (.ret false)) trivial u1
          · rw [Duo.get_set_ne s he, dirEvs_other e dir false (Ne.symm he), List.append_nil]
            exact h.good e
        · intro e
          rw [sentAnswers_append, dirEvs_append, handledItems_append, h.tie e]
          congr 1
          by_cases he : e = dir
          · subst he
            rw [sentAnswers_other (!e) e (Ne.symm hnd), dirEvs_same]
            simp [handledItems]
          · have he' : e = !dir := by cases e <;> cases dir <;> first | rfl | exact absurd rfl he
            subst he'
            rw [Bool.not_not, sentAnswers_same, dirEvs_other (!dir) dir false (Ne.symm hnd)]
            simp [sentItems, handledItems]

theorem Duo.run_good {c : Cfg} (hv : c.Valid) (hr : c.bufSize < 256 ^ c.headLen) {nd cwf : Bool} {batch limit sendLimit W : Nat} {s s' : Duo} {as : List DAct} {es fs : List DEv} (h : s.Good c batch limit es)
    (ha : ∀ a ∈ as, a.Honest) (hs : Duo.Run W c nd cwf batch limit sendLimit s as s' fs) : s'.Good c batch limit (es ++ fs) := by
  induction hs with
  | nil => simpa using h
  | snoc s1 s2 as a fs fs' _ h2 ih =>
    have := Duo.step_good hv hr (ih (fun x hx => ha x (by simp [hx]))) (ha a (by simp)) h2
    rwa [List.append_assoc] at this

theorem Duo.run_trans {c : Cfg} {nd cwf : Bool} {batch limit sendLimit W : Nat} {s s1 s2 : Duo} {as bs : List DAct} {es fs : List DEv} (h1 : Duo.Run W c nd cwf batch limit sendLimit s as s1 es)
    (h2 : Duo.Run W c nd cwf batch limit sendLimit s1 bs s2 fs) : Duo.Run W c nd cwf batch limit sendLimit s (as ++ bs) s2 (es ++ fs) := by
  induction h2 with
  | nil => simpa using h1
  | snoc s2 s3 bs a fs fs' _ hs ih =>
    rw [← List.append_assoc, ← List.append_assoc]
    exact Duo.Run.snoc _ _ _ _ _ _ _ ih hs

theorem Duo.run_one {c : Cfg} {nd cwf : Bool} {batch limit sendLimit W : Nat} {s s' : Duo} {a : DAct} {es : List DEv} (h : s.step W c nd cwf batch limit sendLimit a = some (s', es)) :
    Duo.Run W c nd cwf batch limit sendLimit s [a] s' es := by
  have := Duo.Run.snoc s s s' [] a [] es (.nil s) h
  simpa using this

theorem Duo.exec_run {c : Cfg} {nd cwf : Bool} {batch limit sendLimit W : Nat} {s s' : Duo} {as : List DAct} {es : List DEv} (h : Duo.exec W c nd cwf batch limit sendLimit s as = some (s', es)) :
    Duo.Run W c nd cwf batch limit sendLimit s as s' es := by
  induction as generalizing s es with
  | nil => cases h; exact .nil _
  | cons a as ih =>
    simp only [Duo.exec, Option.bind_eq_bind, Option.bind_eq_some_iff] at h
    obtain ⟨⟨s1, e1⟩, h1, ⟨s2, e2⟩, h2, h3⟩ := h
    cases h3
    exact Duo.run_trans (Duo.run_one h1) (ih h2)

/-! ### counting -/

/-- The sum of something over messages. -/
def itemSum (f : Bytes → Nat) : List Bytes → Nat
  | [] => 0
  | b :: l => f b + itemSum f l

theorem itemSum_append (f : Bytes → Nat) (a b : List Bytes) : itemSum f (a ++ b) = itemSum f a + itemSum f b := by
  induction a with
  | nil => simp [itemSum]
  | cons x a ih => simp only [List.cons_append, itemSum, ih]; omega

theorem sent_split (f : Bytes → Nat) (d : Bool) (es : List DEv) : itemSum f (sentItems (dirEvs d es)) = itemSum f (ownItems d es) + itemSum f (sentAnswers d es) := by
  induction es with
  | nil => rfl
  | cons e es ih =>
    rcases e with ⟨d', b', _ | _⟩ | ⟨d', m, ok⟩ <;> simp only [dirEvs, ownItems, sentAnswers] <;> (try split) <;> (try simp only [sentItems, itemSum]) <;> omega

theorem wireSize_eq (h : Nat) (l : List Item) : wireSize h l = itemSum (fun b => h + b.length) l := by
  induction l with
  | nil => rfl
  | cons b l ih => simp only [wireSize, List.map_cons, List.sum_cons, itemSum] at *; omega

/-- Own messages are those sent and not handled. -/
theorem Duo.Good.conserved {c : Cfg} {batch limit : Nat} {s : Duo} {es : List DEv} (h : s.Good c batch limit es) (f : Bytes → Nat) (d : Bool) :
    itemSum f (sentItems (dirEvs d es)) + itemSum f (sentItems (dirEvs (!d) es)) =
      itemSum f (ownItems true es) + itemSum f (ownItems false es) + itemSum f (handledItems (dirEvs d es)) + itemSum f (handledItems (dirEvs (!d) es)) := by
  have h1 := sent_split f d es
  have h2 := sent_split f (!d) es
  have h3 := h.tie d
  have h4 := h.tie (!d)
  rw [Bool.not_not] at h4
  rw [h1, h2, h3, h4]
  cases d <;> simp only [Bool.not_true, Bool.not_false] <;> omega

/-- What has arrived is not longer than the bytes read. -/
theorem arrived_size (hl : Nat) (items : List Item) : ∀ n, itemSum (fun b => hl + b.length) (arrived hl true items n) ≤ n := by
  induction items with
  | nil => intro n; simp [arrived, itemSum]
  | cons b items ih =>
    intro n
    simp only [arrived]
    split
    · simp [itemSum]
    · have := ih (n - (hl + b.length))
      rw [itemSum_append]
      split
      · simp only [itemSum]; omega
      · simp only [if_true, itemSum]; omega

theorem flat_size (hl : Nat) (items : List Item) : ((items.map (wire hl)).flatten).length = itemSum (fun b => hl + b.length) items := by
  induction items with
  | nil => rfl
  | cons b items ih => simp only [List.map_cons, List.flatten_cons, List.length_append, wire_length, itemSum, ih]

theorem bytes_size (ms : List TxMsg) : (TxMsg.bytes ms).length = sumSize TxMsg.sz ms := by
  induction ms with
  | nil => rfl
  | cons m ms ih =>
    have : TxMsg.bytes (m :: ms) = m.data ++ TxMsg.bytes ms := rfl
    rw [this, List.length_append, ih]
    simp only [sumSize, List.map_cons, List.sum_cons, TxMsg.sz]

/-- The send buffer, what was handled and what is being handled are parts of what was sent. -/
theorem Pipe.Good.parts {c : Cfg} {batch limit : Nat} {s : Pipe} {es : List PEv} (h : s.Good c true batch limit es) :
    s.tx.q.total + itemSum (fun b => c.headLen + b.length) (handledItems es ++ s.rx.cur.toList) ≤ itemSum (fun b => c.headLen + b.length) (sentItems es) := by
  have hst := congrArg List.length h.stream
  rw [List.length_append, List.length_append, flat_size, bytes_size] at hst
  have hq : s.tx.q.total ≤ sumSize TxMsg.sz s.tx.q.items := by
    have he := h.tx_inv.exact
    rw [Q.Exact] at he
    rw [he]
    exact Nat.mod_le _ _
  obtain ⟨ras, res, r1, r2, r3, r4, p, r5, r6⟩ := h.rx
  have hord := C25_order limit ras s.rx res r1 r2
  obtain ⟨q, hq2⟩ := h.arrived s.off h.off
  rw [hq2] at r5
  simp only [Prod.mk.injEq] at r5
  rw [r3, ← r5.1] at hord
  have har := arrived_size c.headLen (sentItems es) s.off
  rw [← hord, itemSum_append] at har
  have := h.off
  omega

/-- While the own messages are not longer than the send buffer, nothing is refused. -/
theorem Duo.Good.accepts {c : Cfg} (hr : c.bufSize < 256 ^ c.headLen) {nd : Bool} {batch limit sendLimit : Nat} {s : Duo} {es : List DEv} (h : s.Good c batch limit es)
    (hown : wireSize c.headLen (ownItems true es) + wireSize c.headLen (ownItems false es) ≤ sendLimit) {d : Bool} {m : Bytes} (hm : (s.get d).rx.cur = some m) :
    Echo.accepts c nd sendLimit (s.get (!d)) m = true := by
  obtain ⟨hok, _, _⟩ := Pipe.cur_packs (nd := nd) hr (h.good d) hm
  have h1 := (h.good d).parts
  have h2 := (h.good (!d)).parts
  have h3 := h.conserved (fun b => c.headLen + b.length) d
  rw [itemSum_append, hm] at h1
  rw [itemSum_append] at h2
  simp only [Option.toList_some, itemSum] at h1
  rw [wireSize_eq, wireSize_eq] at hown
  have := c.headLen_pos
  have hlt : (s.get (!d)).tx.q.total < sendLimit := by omega
  simp only [Echo.accepts]
  rw [if_pos hlt]

theorem ownItems_own (e d : Bool) (l : List PEv) (h : sentItems l = []) : ownItems e (l.map (DEv.of d true)) = [] := by
  induction l with
  | nil => rfl
  | cons x l ih =>
    cases x with
    | sent b => simp [sentItems] at h
    | handled m ok => simpa [DEv.of, ownItems] using ih h

theorem Pipe.internal_sent {c : Cfg} {nd cwf : Bool} {batch limit : Nat} {s s' : Pipe} {a : PAct} {fs : List PEv} (ha : a.Internal) (hret : a.isRet = false)
    (hs : s.step c nd cwf batch limit a = some (s', fs)) : sentItems fs = [] := by
  have : Echo.step c nd cwf batch limit 0 ⟨s, s⟩ (.up a) = some (⟨s', s⟩, fs.map .up) := by simp [Echo.step, hret, hs]
  have := Echo.step_asked (a := .up a) ha this
  rwa [asked, ups_up] at this

theorem Pipe.internal_honest {a : PAct} (h : a.Internal) : a.Honest := by
  cases a with
  | send _ _ => exact absurd h (by simp [PAct.Internal])
  | _ => trivial

theorem itemSum_nonempty (l : List Bytes) : itemSum (fun b => if b = [] then 0 else 1) (l.filter (fun b => b ≠ [])) = itemSum (fun b => if b = [] then 0 else 1) l := by
  induction l with
  | nil => rfl
  | cons b l ih =>
    by_cases hb : b = []
    · subst hb
      simp only [itemSum, if_true, Nat.zero_add, ← ih]
      rfl
    · rw [List.filter_cons_of_pos (by simpa using hb)]
      simp only [itemSum, ih]

theorem itemSum_pos {f : Bytes → Nat} {l : List Bytes} {b : Bytes} (hb : b ∈ l) (hf : 0 < f b) : 0 < itemSum f l := by
  induction l with
  | nil => cases hb
  | cons x l ih =>
    simp only [itemSum]
    rcases List.mem_cons.mp hb with rfl | h
    · omega
    · have := ih h; omega

/-- A direction at rest has delivered everything. -/
theorem Pipe.Good.rest_all {c : Cfg} {batch limit : Nat} {s : Pipe} {es : List PEv} (h : s.Good c true batch limit es) (hr : s.tx.Quiet ∧ s.rx.Quiet limit ∧ s.off = s.tx.wire.length) :
    handledItems es = (sentItems es).filter (fun b => b ≠ []) := by
  obtain ⟨e1, e2⟩ := h.rest hr.1 hr.2.1 hr.2.2
  rw [e2, arrived_all] at e1
  rw [e1]
  simp only [expected]
  rw [show seen c.headLen true = id from by funext b; simp [seen]]
  simp

/-- Something goes on: a message is handled, or the library gets closer to that. -/
theorem Duo.wprogress {c : Cfg} (hv : c.Valid) (hr : c.bufSize < 256 ^ c.headLen) (nd cwf : Bool) {batch limit sendLimit W : Nat} (hW : 0 < W) (hlim : 0 < limit) {s : Duo} {es : List DEv}
    (hg : s.Good c batch limit es) (hown : wireSize c.headLen (ownItems true es) + wireSize c.headLen (ownItems false es) ≤ sendLimit) (hne : ∃ d b, b ∈ ownItems d es ∧ b ≠ []) :
    ∃ a s' fs, a.Internal ∧ s.step W c nd cwf batch limit sendLimit a = some (s', fs) ∧
      ((∃ d m, DEv.handled d m true ∈ fs) ∨ ((∀ e, ownItems e fs = []) ∧ s'.p1.work + s'.p2.work < s.p1.work + s.p2.work)) := by
  by_cases hq : ∀ d, (s.get d).tx.Quiet ∧ (s.get d).rx.Quiet limit ∧ (s.get d).off = (s.get d).tx.wire.length
  · exfalso
    have h1 := (hg.good true).rest_all (hq true)
    have h2 := (hg.good false).rest_all (hq false)
    have h3 := hg.conserved (fun b => if b = [] then 0 else 1) true
    simp only [Bool.not_true] at h3
    rw [h1, h2, itemSum_nonempty, itemSum_nonempty] at h3
    obtain ⟨d, b, b1, b2⟩ := hne
    have := itemSum_pos (f := fun b => if b = [] then 0 else 1) b1 (by simp [b2])
    cases d <;> omega
  · have hq : ∃ d, ¬ ((s.get d).tx.Quiet ∧ (s.get d).rx.Quiet limit ∧ (s.get d).off = (s.get d).tx.wire.length) := Classical.not_forall.mp hq
    obtain ⟨d, hq⟩ := hq
    obtain ⟨a, u, fs, a1, a2, ar, a3, a4⟩ := Pipe.wprogress hv nd cwf hW hlim (hg.good d) hq
    cases hret : a.isRet with
    | false =>
      refine ⟨.pipe d a, s.set d u, fs.map (DEv.of d true), a1, by simp [Duo.step, hret, ar, a3], Or.inr ⟨fun e => ownItems_own e d fs (Pipe.internal_sent a1 hret a3), ?_⟩⟩
      cases d <;> simp only [Duo.get, Duo.set] at a4 ⊢ <;> simp at a4 ⊢ <;> omega
    | true =>
      have ha : a = .rx (.ret true) := by
        cases a with
        | rx b =>
          cases b with
          | ret ok => simp only [PAct.Internal] at a1; rw [a1]
          | _ => simp [PAct.isRet] at hret
        | _ => simp [PAct.isRet] at hret
      subst ha
      obtain ⟨m, hm⟩ := Pipe.ret_cur hv hr (hg.good d) a3
      obtain ⟨hok, _, _⟩ := Pipe.cur_packs (nd := nd) hr (hg.good d) hm
      obtain ⟨e, d1, _⟩ := Pipe.step_send_one hv hr (cwf := cwf) (hg.good (!d)) m hok
      obtain ⟨q1, _⟩ := Pipe.step_ret hm a3
      subst q1
      refine ⟨.relay d, _, _, trivial, by simp [Duo.step, hm, hg.accepts (nd := nd) hr hown hm, d1, a3]; exact ⟨rfl, rfl⟩, Or.inl ⟨d, m, ?_⟩⟩
      simp [DEv.of]

/-- If the own messages are not longer than the send buffer and not all empty, one more message can be handled. -/
theorem Duo.goes_on {c : Cfg} (hv : c.Valid) (hr : c.bufSize < 256 ^ c.headLen) {nd cwf : Bool} {batch limit sendLimit W : Nat} (hW : 0 < W) (hlim : 0 < limit) : ∀ (n : Nat) (s : Duo) (es : List DEv),
    s.Good c batch limit es → wireSize c.headLen (ownItems true es) + wireSize c.headLen (ownItems false es) ≤ sendLimit → (∃ d b, b ∈ ownItems d es ∧ b ≠ []) → s.p1.work + s.p2.work < n →
      ∃ bs s' fs, Duo.Run W c nd cwf batch limit sendLimit s bs s' fs ∧ (∀ b ∈ bs, b.Internal) ∧ ∃ d m, DEv.handled d m true ∈ fs := by
  intro n
  induction n with
  | zero => intro s es _ _ _ hw; omega
  | succ n ih =>
    intro s es hg hown hne hw
    obtain ⟨a, s', fs, a1, a2, a3⟩ := Duo.wprogress hv hr nd cwf hW hlim hg hown hne
    rcases a3 with a3 | ⟨a3, a4⟩
    · exact ⟨[a], s', fs, Duo.run_one a2, by simpa using a1, a3⟩
    · have hh : a.Honest := by
        cases a with
        | pipe d a => exact Pipe.internal_honest a1
        | relay d => trivial
      have hsame : ∀ e, ownItems e (es ++ fs) = ownItems e es := by intro e; rw [ownItems_append, a3 e, List.append_nil]
      obtain ⟨bs, s2, gs, b1, b2, d, m, b3⟩ := ih s' (es ++ fs) (Duo.step_good hv hr hg hh a2) (by rw [hsame, hsame]; exact hown) (by obtain ⟨d, b, h1, h2⟩ := hne; exact ⟨d, b, by rw [hsame]; exact h1, h2⟩) (by omega)
      refine ⟨[a] ++ bs, s2, fs ++ gs, Duo.run_trans (Duo.run_one a2) b1, ?_, d, m, by simp [b3]⟩
      intro b hb
      simp at hb
      rcases hb with rfl | hb
      · exact a1
      · exact b2 b hb

theorem rx_no_ret {limit : Nat} {s s' : Rx} {a : RAct} {res : List REv} (ha : ∀ ok, a ≠ .ret ok) (hs : s.step limit a = some (s', res)) : ∀ m ok, PEv.handled m ok ∉ res.filterMap rxEv := by
  have key : ∀ m ok, REv.ret m ok ∉ res := by
    intro m ok
    cases a with
    | ret ok => exact absurd rfl (ha ok)
    | _ =>
      simp only [Rx.step] at hs
      (repeat' split at hs) <;> (first | (cases hs; done) | (cases hs; simp))
  intro m ok h
  rw [List.mem_filterMap] at h
  obtain ⟨e, e1, e2⟩ := h
  cases e with
  | ret m' ok' => exact key m' ok' e1
  | _ => simp [rxEv] at e2

/-- on_msg_handle returns nowhere else. -/
theorem Pipe.step_no_handled {c : Cfg} {nd cwf : Bool} {batch limit : Nat} {s s' : Pipe} {a : PAct} {fs : List PEv} (hs : s.step c nd cwf batch limit a = some (s', fs)) (hret : a.isRet = false) :
    ∀ m ok, PEv.handled m ok ∉ fs := by
  cases a with
  | send call fits =>
    simp only [Pipe.step] at hs
    split at hs
    · cases hs; simp
    · cases hs; simp
    · simp only [Option.some.injEq, Prod.mk.injEq] at hs
      obtain ⟨_, rfl⟩ := hs
      generalize (List.isEmpty _) = x
      cases x <;> simp
  | tx a =>
    simp only [Pipe.step] at hs
    split at hs
    · rw [Option.map_eq_some_iff] at hs
      obtain ⟨r, _, hs⟩ := hs
      cases hs; simp
    · cases hs
  | net k =>
    simp only [Pipe.step] at hs
    split at hs
    · split at hs
      · split at hs
        · cases hs; simp
        · split at hs
          · rw [Option.map_eq_some_iff] at hs
            obtain ⟨r, h1, hs⟩ := hs
            cases hs
            exact rx_no_ret (by simp) h1
          · cases hs; simp
      · cases hs
    · cases hs
  | rx a =>
    simp only [Pipe.step] at hs
    split at hs
    · rw [Option.map_eq_some_iff] at hs
      obtain ⟨r, h1, hs⟩ := hs
      cases hs
      refine rx_no_ret ?_ h1
      intro ok h
      subst h
      simp [PAct.isRet] at hret
    · cases hs

/-- No message is refused. -/
theorem Duo.step_accepted {c : Cfg} (hr : c.bufSize < 256 ^ c.headLen) {nd cwf : Bool} {batch limit sendLimit W : Nat} {s s' : Duo} {a : DAct} {es fs : List DEv} (h : s.Good c batch limit es)
    (hown : wireSize c.headLen (ownItems true es) + wireSize c.headLen (ownItems false es) ≤ sendLimit) (hs : s.step W c nd cwf batch limit sendLimit a = some (s', fs)) :
    ∀ d m, DEv.handled d m false ∉ fs := by
  cases a with
  | pipe dir a =>
    simp only [Duo.step] at hs
    split at hs
    · cases hs
    · next hret =>
      rw [Option.map_eq_some_iff] at hs
      obtain ⟨⟨t, tes⟩, h1, h2⟩ := hs
      cases h2
      have hnr := Pipe.step_no_handled h1 (by simp only [not_or] at hret; simpa using hret.1)
      intro d m hmem
      rw [List.mem_map] at hmem
      obtain ⟨e, e1, e2⟩ := hmem
      cases e with
      | sent b => simp [DEv.of] at e2
      | handled m' ok => exact hnr m' ok e1
  | relay dir =>
    simp only [Duo.step] at hs
    split at hs
    · cases hs
    · next m hm =>
      rw [if_pos (h.accepts (nd := nd) hr hown hm)] at hs
      simp only [Option.bind_eq_bind, Option.bind_eq_some_iff] at hs
      obtain ⟨⟨d, des⟩, d1, ⟨u, ues⟩, u1, u2⟩ := hs
      cases u2
      obtain ⟨q1, _⟩ := Pipe.step_ret hm u1
      have hnr := Pipe.step_no_handled d1 rfl
      subst q1
      intro e m' hmem
      rw [List.mem_append, List.mem_map, List.mem_map] at hmem
      rcases hmem with ⟨x, x1, x2⟩ | ⟨x, x1, x2⟩
      · cases x with
        | sent b => simp [DEv.of] at x2
        | handled m' ok => exact hnr m' ok x1
      · simp at x1
        subst x1
        simp [DEv.of] at x2

/-! ### blocked for ever -/

/-- The send buffer is full, the sender waits for the kernel and the kernel for the receiver. -/
structure Tx.Blocked (W off sendLimit : Nat) (s : Tx) : Prop where
  posted : s.posted = 0
  pc : s.pc = .idle
  sending : s.sending = true
  dones : s.dones = []
  full : sendLimit ≤ s.q.total
  writes : ∀ w ∈ s.writes, w.done < (TxMsg.bytes w.bufs).length
  window : off + W ≤ s.wire.length

/-- The receive buffer is full, and on_msg_handle is offered the same message again and again. -/
structure Rx.Blocked (limit : Nat) (s : Rx) : Prop where
  rd : s.rd = .timer
  full : limit ≤ s.buf.total
  cur : s.cur.isSome = true
  dispatching : s.dispatching = true
  pc : s.pc = .idle ∨ s.pc = .got ∨ s.pc = .handling ∨ s.pc = .refused

theorem Tx.blocked_step {batch W off sendLimit : Nat} {s s' : Tx} {a : TxAct} {es : List TxEv} (h : s.Blocked W off sendLimit) (ha : a.healthy = true)
    (hroom : (PAct.tx a).room W s.wire.length off = true) (hs : s.step batch a = some (s', es)) : s'.Blocked W off sendLimit := by
  cases a with
  | loadReady =>
    simp only [Tx.step] at hs
    split at hs
    · cases hs
    · cases hs; exact ⟨h.posted, h.pc, h.sending, h.dones, h.full, h.writes, h.window⟩
  | loadFlag =>
    simp only [Tx.step] at hs
    split at hs
    · cases hs
    · cases hs; exact ⟨by simp [h.sending, h.posted], h.pc, h.sending, h.dones, h.full, h.writes, h.window⟩
  | runPosted => simp [Tx.step, h.posted] at hs
  | strand => simp [Tx.step, Tx.strand, h.pc] at hs
  | transfer i k =>
    simp only [Tx.step, Option.bind_eq_bind, Option.bind_eq_some_iff] at hs
    obtain ⟨w, _, hs⟩ := hs
    split at hs
    · cases hs
    · next hk =>
      simp only [PAct.room, decide_eq_true_eq] at hroom
      have := h.window
      omega
  | complete i ok =>
    cases ok with
    | false => simp [TxAct.healthy] at ha
    | true =>
      simp only [Tx.step, Option.bind_eq_bind, Option.bind_eq_some_iff] at hs
      obtain ⟨w, hw, hs⟩ := hs
      have := h.writes w (List.mem_of_getElem? hw)
      rw [if_pos ⟨trivial, by omega⟩] at hs
      cases hs
  | handler i => simp [Tx.step, h.dones] at hs
  | _ => simp [TxAct.healthy] at ha

theorem Rx.blocked_step {limit : Nat} {s s' : Rx} {a : RAct} {es : List REv} (h : s.Blocked limit) (ha : a.healthy = true) (hret : a ≠ .ret true) (hs : s.step limit a = some (s', es)) :
    s'.Blocked limit := by
  obtain ⟨h1, h2, h3, h4, h5⟩ := h
  have hav : s.available limit = false := by simp only [Rx.available, decide_eq_false_iff_not]; omega
  cases hc : s.cur with
  | none => rw [hc] at h3; cases h3
  | some m =>
    cases a with
    | loadDisp => simp [Rx.step, h1] at hs
    | handled => simp [Rx.step, h1] at hs
    | checkTimer => simp only [Rx.step, h1, hav] at hs; simp at hs; obtain ⟨rfl, _⟩ := hs; exact ⟨rfl, h2, h3, h4, h5⟩
    | resume => simp [Rx.step, h1] at hs
    | run =>
      simp only [Rx.step, h4, if_true] at hs
      split at hs
      · cases hs
      · cases hs; exact ⟨h1, h2, h3, rfl, Or.inr (Or.inl rfl)⟩
    | begin =>
      simp only [Rx.step, hc] at hs
      split at hs
      · cases hs
      · cases hs; exact ⟨h1, h2, by simp, rfl, Or.inr (Or.inr (Or.inl rfl))⟩
    | ret ok =>
      cases ok with
      | true => exact absurd rfl hret
      | false =>
        simp only [Rx.step, hc] at hs
        split at hs
        · cases hs
        · simp at hs; obtain ⟨rfl, _⟩ := hs; exact ⟨h1, h2, by simp, h4, Or.inr (Or.inr (Or.inr rfl))⟩
    | dis =>
      simp only [Rx.step] at hs
      rcases h5 with h5 | h5 | h5 | h5 <;> simp only [h5] at hs
      · cases hs
      · cases hs
      · cases hs
      · cases hs; exact ⟨h1, h2, by simp [hc], h4, Or.inl rfl⟩
    | dtimer =>
      simp only [Rx.step] at hs
      split at hs
      · cases hs; exact ⟨h1, h2, by simp [hc], h4, h5⟩
      · cases hs
    | _ => simp [RAct.healthy] at ha

def Pipe.Blocked (W limit sendLimit : Nat) (s : Pipe) : Prop := s.tx.Blocked W s.off sendLimit ∧ s.rx.Blocked limit

theorem Pipe.blocked_step {c : Cfg} {nd cwf : Bool} {batch limit sendLimit W : Nat} {s s' : Pipe} {a : PAct} {es : List PEv} (h : s.Blocked W limit sendLimit) (hns : ∀ call fits, a ≠ .send call fits)
    (hret : a ≠ .rx (.ret true)) (hroom : a.room W s.tx.wire.length s.off = true) (hs : s.step c nd cwf batch limit a = some (s', es)) : s'.Blocked W limit sendLimit := by
  cases a with
  | send call fits => exact absurd rfl (hns call fits)
  | tx a =>
    simp only [Pipe.step] at hs
    split at hs
    · next hh =>
      rw [Option.map_eq_some_iff] at hs
      obtain ⟨⟨t, tes⟩, h1, hs⟩ := hs
      cases hs
      exact ⟨Tx.blocked_step h.1 hh hroom h1, h.2⟩
    · cases hs
  | net k => simp [Pipe.step, h.2.rd] at hs
  | rx a =>
    simp only [Pipe.step] at hs
    split at hs
    · next hh =>
      rw [Option.map_eq_some_iff] at hs
      obtain ⟨⟨t, tes⟩, h1, hs⟩ := hs
      cases hs
      exact ⟨h.1, Rx.blocked_step h.2 hh (fun hc => hret (by rw [hc])) h1⟩
    · cases hs

theorem Duo.blocked_step {c : Cfg} {nd cwf : Bool} {batch limit sendLimit W : Nat} {s s' : Duo} {a : DAct} {es : List DEv} (h : ∀ d, (s.get d).Blocked W limit sendLimit) (ha : a.Internal)
    (hs : s.step W c nd cwf batch limit sendLimit a = some (s', es)) : (∀ d, (s'.get d).Blocked W limit sendLimit) ∧ ∀ d m, DEv.handled d m true ∉ es := by
  have hset : ∀ dir p, p.Blocked W limit sendLimit → ∀ d, ((s.set dir p).get d).Blocked W limit sendLimit := by
    intro dir p hp d
    by_cases hd : d = dir
    · subst hd; rw [Duo.get_set]; exact hp
    · rw [Duo.get_set_ne s hd]; exact h d
  cases a with
  | pipe dir a =>
    simp only [Duo.step] at hs
    split at hs
    · cases hs
    · next hret =>
      simp only [not_or] at hret
      rw [Option.map_eq_some_iff] at hs
      obtain ⟨⟨t, tes⟩, h1, h2⟩ := hs
      cases h2
      refine ⟨hset dir t (Pipe.blocked_step (h dir) ?_ ?_ (by simpa using hret.2) h1), ?_⟩
      · intro call fits hc; subst hc; exact absurd ha (by simp [DAct.Internal, PAct.Internal])
      · intro hc; subst hc; exact hret.1 rfl
      · have hnr := Pipe.step_no_handled h1 (by simpa using hret.1)
        intro d m hmem
        rw [List.mem_map] at hmem
        obtain ⟨e, e1, e2⟩ := hmem
        cases e with
        | sent b => simp [DEv.of] at e2
        | handled m' ok => exact hnr m' ok e1
  | relay dir =>
    simp only [Duo.step] at hs
    split at hs
    · cases hs
    · next m hm =>
      have hacc : Echo.accepts c nd sendLimit (s.get (!dir)) m = false := by
        simp only [Echo.accepts]
        rw [if_neg (by have := (h (!dir)).1.full; omega)]
      rw [if_neg (by simp [hacc])] at hs
      simp only [Option.bind_eq_bind, Option.bind_eq_some_iff] at hs
      obtain ⟨⟨u, ues⟩, u1, u2⟩ := hs
      cases u2
      obtain ⟨q1, _⟩ := Pipe.step_ret hm u1
      subst q1
      refine ⟨hset dir u (Pipe.blocked_step (h dir) (by simp) (by simp) rfl u1), ?_⟩
      simp [DEv.of]

theorem Duo.blocked_run {c : Cfg} {nd cwf : Bool} {batch limit sendLimit W : Nat} {s s' : Duo} {as : List DAct} {es : List DEv} (h : ∀ d, (s.get d).Blocked W limit sendLimit) (ha : ∀ a ∈ as, a.Internal)
    (hs : Duo.Run W c nd cwf batch limit sendLimit s as s' es) : (∀ d, (s'.get d).Blocked W limit sendLimit) ∧ ∀ d m, DEv.handled d m true ∉ es := by
  induction hs with
  | nil => exact ⟨h, by simp⟩
  | snoc s1 s2 as a es fs _ hs ih =>
    obtain ⟨i1, i2⟩ := ih (fun x hx => ha x (by simp [hx]))
    obtain ⟨j1, j2⟩ := Duo.blocked_step i1 (ha a (by simp)) hs
    refine ⟨j1, ?_⟩
    intro d m hmem
    rcases List.mem_append.mp hmem with hmem | hmem
    · exact i2 d m hmem
    · exact j2 d m hmem

/-! ### the window -/

theorem Tx.healthy_wire {batch : Nat} {s s' : Tx} {a : TxAct} {es : List TxEv} (ha : a.healthy = true) (hs : s.step batch a = some (s', es)) :
    s'.wire.length = s.wire.length ∨ ∃ i k, a = .transfer i k ∧ s'.wire.length = s.wire.length + k := by
  cases a with
  | transfer i k =>
    right
    simp only [Tx.step, Option.bind_eq_bind, Option.bind_eq_some_iff] at hs
    obtain ⟨w, _, hs⟩ := hs
    split at hs
    · cases hs
    · cases hs
      refine ⟨i, k, rfl, ?_⟩
      rw [List.length_append, List.length_take]
      omega
  | strand =>
    left
    simp only [Tx.step, Tx.strand] at hs
    (repeat' split at hs) <;> first | (cases hs; done) | (cases hs; rfl)
  | handler i =>
    left
    simp only [Tx.step, Option.bind_eq_bind, Option.bind_eq_some_iff] at hs
    obtain ⟨w, _, hs⟩ := hs
    split at hs
    · cases hs
    · simp only [Tx.handler] at hs
      split at hs <;> (cases hs; rfl)
  | complete i ok =>
    left
    simp only [Tx.step, Option.bind_eq_bind, Option.bind_eq_some_iff] at hs
    obtain ⟨w, _, hs⟩ := hs
    split at hs
    · cases hs
    · cases hs; rfl
  | loadReady => left; simp only [Tx.step] at hs; split at hs <;> first | (cases hs; done) | (cases hs; rfl)
  | loadFlag => left; simp only [Tx.step] at hs; split at hs <;> first | (cases hs; done) | (cases hs; rfl)
  | runPosted => left; simp only [Tx.step] at hs; split at hs <;> first | (cases hs; done) | (cases hs; rfl)
  | _ => simp [TxAct.healthy] at ha

theorem Tx.send_wire (s : Tx) (m : TxMsg) (prior fits : Bool) : (s.send m prior fits).1.wire = s.wire := by
  simp only [Tx.send]
  (repeat' split) <;> rfl

theorem Tx.sendList_wire (s : Tx) (ms : List TxMsg) (prior : Bool) : (s.sendList ms prior).1.wire = s.wire := by
  simp only [Tx.sendList]
  split <;> rfl

theorem GPipe.wstep_window {K : Codec} {cwf : Bool} {batch limit W : Nat} {s s' : GPipe K} {a : PAct} {es : List PEv} (h : s.tx.wire.length ≤ s.off + W) (hs : s.wstep W cwf batch limit a = some (s', es)) :
    s'.tx.wire.length ≤ s'.off + W := by
  simp only [GPipe.wstep] at hs
  split at hs
  · next hroom =>
    cases a with
    | send call fits =>
      simp only [GPipe.step] at hs
      split at hs
      · cases hs; exact h
      · cases hs; exact h
      · cases hs
        simp only
        split <;> simp only [Tx.send_wire, Tx.sendList_wire] <;> exact h
    | tx a =>
      simp only [GPipe.step] at hs
      split at hs
      · next hh =>
        rw [Option.map_eq_some_iff] at hs
        obtain ⟨⟨t, tes⟩, h1, hs⟩ := hs
        cases hs
        rcases Tx.healthy_wire hh h1 with hw | ⟨i, k, rfl, hw⟩
        · show t.wire.length ≤ s.off + W
          omega
        · simp only [PAct.room, decide_eq_true_eq] at hroom
          show t.wire.length ≤ s.off + W
          omega
      · cases hs
    | net k =>
      simp only [GPipe.step] at hs
      (repeat' split at hs) <;> first
        | (cases hs; done)
        | (cases hs; simp only; omega)
        | (rw [Option.map_eq_some_iff] at hs; obtain ⟨r, _, hs⟩ := hs; cases hs; simp only; omega)
    | rx a =>
      simp only [GPipe.step] at hs
      split at hs
      · rw [Option.map_eq_some_iff] at hs
        obtain ⟨⟨t, tes⟩, h1, hs⟩ := hs
        cases hs
        exact h
      · cases hs
  · cases hs

end StAsio
