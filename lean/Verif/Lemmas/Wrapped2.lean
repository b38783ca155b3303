import Verif.Lemmas.Wrapped
set_option linter.unusedSimpArgs false
set_option autoImplicit false
namespace StAsio

/-- What the user has to respect: an object is changed only while use_count() is 1, and the two messages of one call are not the same variable. -/
def Wb.Alone (s : Wb) : WAct → Prop
  | .change v _ => ∀ o, s.var v = some o → s.useCount o = 1
  | .send2 _ _ _ byRef v w => byRef = true → v ≠ w
  | _ => True

theorem var_get {s : Wb} {v o : Nat} (h : s.var v = some o) : s.vars[v]? = some (some o) := by
  unfold Wb.var at h
  rw [List.getD_eq_getElem?_getD] at h
  cases hv : s.vars[v]? with
  | none => simp [hv] at h
  | some a => simp [hv] at h; rw [h]

theorem Wb.alone_spec {s : Wb} {v o : Nat} (hv : s.var v = some o) (hu : s.useCount o = 1) :
    (∀ j, j ≠ v → s.vars[j]? ≠ some (some o)) ∧ some o ∉ s.can ∧ ∀ k ∈ s.socks, some o ∉ k.q.items ∧ some o ∉ k.flight := by
  have hg := var_get hv
  unfold Wb.useCount Wb.handles at hu
  simp only [List.count_append] at hu
  have h1 : 0 < s.vars.count (some o) := List.count_pos_iff.mpr (List.mem_of_getElem? hg)
  refine ⟨?_, ?_, ?_⟩
  · intro j hj hjo
    have hlv : v < s.vars.length := (List.getElem?_eq_some_iff.mp hg).1
    have hlj : j < s.vars.length := (List.getElem?_eq_some_iff.mp hjo).1
    have h2 : (s.vars.set v none).count (some o) = s.vars.count (some o) - 1 := by
      rw [List.count_set hlv]
      have : s.vars[v] = some o := (List.getElem?_eq_some_iff.mp hg).2
      simp [this]
    have h3 : 0 < (s.vars.set v none).count (some o) := by
      apply List.count_pos_iff.mpr
      apply List.mem_of_getElem? (i := j)
      rw [List.getElem?_set_ne (fun h => hj h.symm)]
      exact hjo
    omega
  · intro hc
    have := List.count_pos_iff.mpr hc
    omega
  · intro k hk
    have h0 : (s.socks.flatMap (fun k => k.q.items ++ k.flight)).count (some o) = 0 := by omega
    have h2 := List.count_eq_zero.mp h0
    simp only [List.mem_flatMap, List.mem_append, not_exists, not_and, not_or] at h2
    exact h2 k hk

theorem mem_set_ok {n : Nat} {l : List Hdl} {v : Nat} {a : Hdl} (hl : ∀ h ∈ l, HOk n h) (ha : HOk n a) : ∀ h ∈ l.set v a, HOk n h := by
  intro h hh
  rcases List.mem_or_eq_of_mem_set hh with hh | rfl
  · exact hl h hh
  · exact ha

theorem Wb.enq_spec {c : Cfg} {s s2 : Wb} (hg : s.Good) (x : List Bytes) {i : Nat} {k : WSock} (hk : s.socks[i]? = some k) (vars can hs : List Hdl)
    (hv : ∀ h ∈ vars, HOk (s.objs ++ x).length h) (hc : ∀ h ∈ can, HOk (s.objs ++ x).length h) (hh : ∀ h ∈ hs, HOk (s.objs ++ x).length h)
    (h : Wb.enqueueList { s with objs := s.objs ++ x, vars, can } i k hs = some s2) :
    s2.Good ∧ s2.view = { vars := vars.map (hval (s.objs ++ x)), can := can.map (hval (s.objs ++ x)), out := s.view.out.modify i (· ++ (hs.map (hval (s.objs ++ x))).flatten) } := by
  have _ := c
  unfold Wb.enqueueList at h
  simp only [Option.map_eq_some_iff] at h
  obtain ⟨q, hq, rfl⟩ := h
  have hm : k ∈ s.socks := List.mem_of_getElem? hk
  obtain ⟨e1, e2⟩ := Wb.list_exact (exact_congr (map_hval_append x (hg.items k hm)) (hg.exact k hm)) hq
  exact Wb.put_spec hg x hk vars can hs q hv hc hh e1 e2

theorem take_spec {objs : List Bytes} {k : WSock} (he : k.q.Exact (hsize objs)) (max : Nat) :
    (k.q.moveOutBytes (hsize objs) [] max).1.Exact (hsize objs) ∧ k.q.items = (k.q.moveOutBytes (hsize objs) [] max).2 ++ (k.q.moveOutBytes (hsize objs) [] max).1.items := by
  obtain ⟨q', r, h1, h2, p, h3, h4, h5⟩ := Q.step_spec (hsize objs) he (.moveOutBytes [] max) trivial
  simp only [Q.step, Option.some.injEq, Prod.mk.injEq] at h1
  obtain ⟨e1, e2⟩ := h1
  subst e1; subst e2
  simp only [List.nil_append] at h3
  refine ⟨h2, ?_⟩
  simp only [h3]
  exact h4

theorem replace_sock {s : Wb} (hg : s.Good) {i : Nat} {k k' : WSock} (hk : s.socks[i]? = some k) (h1 : ∀ h ∈ k'.q.items, HOk s.objs.length h) (h2 : ∀ h ∈ k'.flight, HOk s.objs.length h)
    (h3 : k'.q.Exact (hsize s.objs)) (h4 : k'.bytes s.objs = k.bytes s.objs) :
    Wb.Good { s with socks := s.socks.set i k' } ∧ Wb.view { s with socks := s.socks.set i k' } = s.view := by
  refine ⟨⟨hg.vars, hg.can, ?_, ?_, ?_, hg.fine⟩, ?_⟩
  · intro a ha
    rcases List.mem_or_eq_of_mem_set ha with ha | rfl
    · exact hg.items a ha
    · exact h1
  · intro a ha
    rcases List.mem_or_eq_of_mem_set ha with ha | rfl
    · exact hg.flight a ha
    · exact h2
  · intro a ha
    rcases List.mem_or_eq_of_mem_set ha with ha | rfl
    · exact hg.exact a ha
    · exact h3
  · simp only [Wb.view, IMsgs.mk.injEq, true_and]
    rw [List.map_set, h4]
    apply List.ext_getElem?
    intro j
    rw [List.getElem?_set]
    split
    · next hij =>
      subst hij
      have hlt : i < s.socks.length := (List.getElem?_eq_some_iff.mp hk).1
      simp [hlt, hk]
      have := (List.getElem?_eq_some_iff.mp hk).2
      rw [this]
    · rfl

theorem Wb.sim {c : Cfg} (hcv : c.Valid) {nd : Bool} (hr : c.bufSize < 256 ^ c.headLen ∨ nd = false) {shared : Bool} {limit : Nat} {s s2 : Wb} {a : WAct} {ok : Bool} (hg : s.Good) (ha : s.Alone a)
    (h : s.step c nd shared limit a = some (s2, ok)) : s2.Good ∧ s2.view = s.view.step c.headLen a ok := by
  have hl1 : ∀ x : List Bytes, s.objs.length ≤ (s.objs ++ x).length := by simp
  have lift : ∀ (x : List Bytes) (l : List Hdl), (∀ h ∈ l, HOk s.objs.length h) → ∀ h ∈ l, HOk (s.objs ++ x).length h := fun x l hl h hh => (hl h hh).mono (hl1 x)
  have e0 : ({ s with objs := s.objs ++ [] } : Wb) = s := by simp
  cases a with
  | make v b =>
    simp only [Wb.step] at h
    split at h
    · simp only [Option.some.injEq, Prod.mk.injEq] at h
      obtain ⟨rfl, rfl⟩ := h
      have hnew : HOk (s.objs ++ [b]).length (some s.objs.length) := fun o ho => by simp at ho; simp; omega
      refine ⟨⟨mem_set_ok (lift _ _ hg.vars) hnew, lift _ _ hg.can, fun k hk => lift _ _ (hg.items k hk), fun k hk => lift _ _ (hg.flight k hk), fun k hk => exact_congr (map_hval_append _ (hg.items k hk)) (hg.exact k hk), hg.fine⟩, ?_⟩
      simp only [Wb.view, IMsgs.step, List.map_set, hval_new, map_hval_append _ hg.vars, map_hval_append _ hg.can, IMsgs.mk.injEq, true_and]
      apply List.map_congr_left
      intro k hk
      simp only [WSock.bytes, map_hval_append _ (hg.items k hk), map_hval_append _ (hg.flight k hk)]
    · simp at h
  | clear v =>
    simp only [Wb.step] at h
    split at h
    · simp only [Option.some.injEq, Prod.mk.injEq] at h
      obtain ⟨rfl, rfl⟩ := h
      exact ⟨⟨mem_set_ok hg.vars (HOk.none _), hg.can, hg.items, hg.flight, hg.exact, hg.fine⟩, by simp only [Wb.view, IMsgs.step, List.map_set]; rfl⟩
    · simp at h
  | copy v w =>
    simp only [Wb.step] at h
    split at h
    · simp only [Option.some.injEq, Prod.mk.injEq] at h
      obtain ⟨rfl, rfl⟩ := h
      refine ⟨⟨mem_set_ok hg.vars (Wb.var_ok hg v), hg.can, hg.items, hg.flight, hg.exact, hg.fine⟩, ?_⟩
      simp only [IMsgs.step, Wb.view_var]
      simp only [Wb.view, List.map_set]
    · simp at h
  | swap v w =>
    simp only [Wb.step] at h
    split at h
    · simp only [Option.some.injEq, Prod.mk.injEq] at h
      obtain ⟨rfl, rfl⟩ := h
      refine ⟨⟨mem_set_ok (mem_set_ok hg.vars (Wb.var_ok hg w)) (Wb.var_ok hg v), hg.can, hg.items, hg.flight, hg.exact, hg.fine⟩, ?_⟩
      simp only [IMsgs.step, Wb.view_var]
      simp only [Wb.view, List.map_set]
    · simp at h
  | change v b =>
    simp only [Wb.step] at h
    split at h
    · simp at h
    · next o ho =>
      simp only [Option.some.injEq, Prod.mk.injEq] at h
      obtain ⟨rfl, rfl⟩ := h
      obtain ⟨a1, a2, a3⟩ := Wb.alone_spec ho (ha o ho)
      have hget := var_get ho
      have hob : o < s.objs.length := hg.vars _ (List.mem_of_getElem? hget) o rfl
      refine ⟨⟨by simpa using hg.vars, by simpa using hg.can, by simpa using hg.items, by simpa using hg.flight, fun k hk => exact_congr (map_hval_set b (a3 k hk).1) (hg.exact k hk), ?_⟩, ?_⟩
      · simp only [hg.fine, Bool.false_or, List.any_eq_false, List.contains_iff_mem, Bool.not_eq_true]
        intro k hk
        have := (a3 k hk).2
        simpa using this
      · simp only [Wb.view, IMsgs.step, map_hval_set b a2, IMsgs.mk.injEq, true_and]
        refine ⟨?_, ?_⟩
        · apply List.ext_getElem?
          intro j
          simp only [List.getElem?_map, List.getElem?_set, List.length_map]
          by_cases hj : v = j
          · subst hj
            simp only [if_true, (List.getElem?_eq_some_iff.mp hget).1, hget, Option.map_some, hval, List.getD_eq_getElem?_getD, List.getElem?_set, hob, Option.getD_some]
          · simp only [hj, if_false]
            cases hjv : s.vars[j]? with
            | none => rfl
            | some x =>
              have := a1 j (fun e => hj e.symm)
              rw [hjv] at this
              simp only [Option.map_some, Option.some.injEq]
              exact hval_set b (fun e => this (by rw [e]))
        · apply List.map_congr_left
          intro k hk
          simp only [WSock.bytes, map_hval_set b (a3 k hk).1, map_hval_set b (a3 k hk).2]
  | push v =>
    simp only [Wb.step] at h
    split at h
    · simp only [Option.some.injEq, Prod.mk.injEq] at h
      obtain ⟨rfl, rfl⟩ := h
      refine ⟨⟨mem_set_ok hg.vars (HOk.none _), ?_, hg.items, hg.flight, hg.exact, hg.fine⟩, ?_⟩
      · intro h hh
        simp only [List.mem_append, List.mem_singleton] at hh
        rcases hh with hh | rfl
        · exact hg.can h hh
        · exact Wb.var_ok hg v
      · simp only [IMsgs.step, Wb.view_var]
        simp only [Wb.view, List.map_set, List.map_append, List.map_cons, List.map_nil]
        rfl
    · simp at h
  | send i native ovf byRef v =>
    simp only [Wb.step] at h
    split at h
    · split at h
      · simp at h
      · next k hk =>
        have hm : k ∈ s.socks := List.mem_of_getElem? hk
        have hvars : ∀ b : Bool, ∀ h ∈ (if b then s.vars.set v none else s.vars), HOk s.objs.length h := by
          intro b
          cases b
          · simpa using hg.vars
          · simpa using mem_set_ok hg.vars (HOk.none _)
        split at h
        · simp only [Option.some.injEq, Prod.mk.injEq] at h
          obtain ⟨rfl, rfl⟩ := h
          exact ⟨hg, rfl⟩
        · split at h
          · next hnat =>
            simp only [Option.some.injEq, Prod.mk.injEq] at h
            obtain ⟨rfl, rfl⟩ := h
            subst hnat
            simp only [Wb.enqueueOne, doDirectOne]
            by_cases he : hsize s.objs (s.var v) = 0
            · have hnil : hval s.objs (s.var v) = [] := List.length_eq_zero_iff.mp he
              have hset : s.view.vars.set v [] = s.view.vars := by
                apply List.ext_getElem?
                intro j
                rw [List.getElem?_set]
                split
                · next hvj =>
                  subst hvj
                  split
                  · next hlt =>
                    have := Wb.view_var s v
                    rw [hnil] at this
                    simp only [IMsgs.var, List.getD_eq_getElem?_getD, List.getElem?_eq_getElem hlt, Option.getD_some] at this
                    rw [List.getElem?_eq_getElem hlt, this]
                  · next hlt => exact (List.getElem?_eq_none (by omega)).symm
                · rfl
              simp only [he, if_true, Bool.false_eq_true, and_false, if_false]
              have hsame : s.socks.set i { k with q := k.q } = s.socks := by
                apply List.ext_getElem?
                intro j
                rw [List.getElem?_set]
                split
                · next hij => subst hij; split; exact hk.symm; exact (List.getElem?_eq_none (by omega)).symm
                · rfl
              have hsame : s.socks.set i k = s.socks := hsame
              rw [hsame]
              refine ⟨⟨hg.vars, hg.can, hg.items, hg.flight, hg.exact, hg.fine⟩, ?_⟩
              simp only [IMsgs.step, if_true, Wb.view_var, hnil, List.append_nil, hset, ite_self]
              simp only [Wb.view, IMsgs.mk.injEq, true_and]
              exact (List.modify_id ..).symm
            · simp only [he, if_false, Bool.false_eq_true, Q.enqueue, if_true, and_true]
              have := Wb.put_spec hg [] hk (if byRef = true then s.vars.set v none else s.vars) s.can [s.var v] ⟨k.q.items ++ [s.var v], w64add k.q.total (hsize s.objs (s.var v))⟩
                (by simpa using hvars byRef) (by simpa using hg.can) (by simpa using Wb.var_ok hg v) rfl (by
                  have := hg.exact k hm
                  unfold Q.Exact at *
                  simp only [List.append_nil, sumSize_append, sumSize_cons, sumSize_nil, this, w64add]
                  omega)
              simp only [List.append_nil] at this
              refine ⟨this.1, ?_⟩
              rw [this.2]
              simp only [IMsgs.step, if_true, Wb.view_var, IMsgs.mk.injEq, List.map_cons, List.map_nil, List.flatten_cons, List.flatten_nil, List.append_nil]
              refine ⟨?_, rfl, trivial⟩
              cases byRef <;> simp [Wb.view, List.map_set, hval]
          · next hnat =>
            simp only [Bool.not_eq_true] at hnat
            subst hnat
            split at h
            · simp at h
            · simp only [Option.some.injEq, Prod.mk.injEq] at h
              obtain ⟨rfl, rfl⟩ := h
              exact ⟨hg, rfl⟩
            · next objs hs hp =>
              obtain ⟨e1, e2⟩ := pack2_spec hcv hr hp
              subst e1; subst e2
              simp only [Option.map_eq_some_iff, Prod.mk.injEq] at h
              obtain ⟨s3, h, rfl, rfl⟩ := h
              have := Wb.enq_spec (c := c) hg [_] hk (if byRef = true then s.vars.set v none else s.vars) s.can _ (lift _ _ (hvars byRef)) (lift _ _ hg.can) ?_ h
              · refine ⟨this.1, ?_⟩
                rw [this.2]
                simp only [IMsgs.step, if_false, Bool.false_eq_true, Wb.view_var, List.map_cons, List.map_nil, List.flatten_cons, List.flatten_nil, List.append_nil, hval_new, hval_append _ (Wb.var_ok hg v), map_hval_append _ (hvars byRef), map_hval_append _ hg.can, wire]
                simp only [IMsgs.mk.injEq]
                refine ⟨?_, rfl, trivial⟩
                cases byRef <;> simp [Wb.view, List.map_set, hval]
              · intro h hh
                simp only [List.mem_cons, List.not_mem_nil, or_false] at hh
                rcases hh with rfl | rfl
                · intro o ho; simp at ho; simp; omega
                · exact (Wb.var_ok hg v).mono (hl1 _)
    · simp at h
  | send2 i native ovf byRef v w =>
    simp only [Wb.step] at h
    split at h
    · split at h
      · simp at h
      · next k hk =>
        have hm : k ∈ s.socks := List.mem_of_getElem? hk
        have hvars : ∀ h ∈ (if byRef = true then (s.vars.set v none).set w none else s.vars), HOk s.objs.length h := by
          cases byRef
          · simpa using hg.vars
          · simpa using mem_set_ok (mem_set_ok hg.vars (HOk.none _)) (HOk.none _)
        have htk : (if byRef = true ∧ v = w then none else s.var w) = s.var w := by
          split
          · next hb => exact absurd hb.2 (ha hb.1)
          · rfl
        rw [htk] at h
        split at h
        · simp only [Option.some.injEq, Prod.mk.injEq] at h
          obtain ⟨rfl, rfl⟩ := h
          exact ⟨hg, rfl⟩
        · split at h
          · next hnat =>
            subst hnat
            simp only [Option.map_eq_some_iff, Prod.mk.injEq] at h
            obtain ⟨s3, h, rfl, rfl⟩ := h
            have := Wb.enq_spec (c := c) (x := []) hg hk _ s.can [s.var v, s.var w] (by simpa using hvars) (by simpa using hg.can) ?_ (by simpa using h)
            · refine ⟨this.1, ?_⟩
              rw [this.2]
              simp only [IMsgs.step, if_true, Wb.view_var, List.map_cons, List.map_nil, List.flatten_cons, List.flatten_nil, List.append_nil, IMsgs.mk.injEq]
              refine ⟨?_, rfl, trivial⟩
              cases byRef <;> simp [Wb.view, List.map_set, hval]
            · intro h hh
              simp only [List.mem_cons, List.not_mem_nil, or_false] at hh
              rcases hh with rfl | rfl
              · simpa using Wb.var_ok hg v
              · simpa using Wb.var_ok hg w
          · next hnat =>
            simp only [Bool.not_eq_true] at hnat
            subst hnat
            split at h
            · simp at h
            · simp only [Option.some.injEq, Prod.mk.injEq] at h
              obtain ⟨rfl, rfl⟩ := h
              exact ⟨hg, rfl⟩
            · next objs hs hp =>
              obtain ⟨e1, e2⟩ := pack2_spec hcv hr hp
              subst e1; subst e2
              simp only [Option.map_eq_some_iff, Prod.mk.injEq, List.take_succ_cons, List.take_zero, List.cons_append, List.nil_append] at h
              obtain ⟨s3, h, rfl, rfl⟩ := h
              have := Wb.enq_spec (c := c) hg [_] hk _ s.can _ (lift _ _ hvars) (lift _ _ hg.can) ?_ h
              · refine ⟨this.1, ?_⟩
                rw [this.2]
                simp only [IMsgs.step, if_false, Bool.false_eq_true, Wb.view_var, List.map_cons, List.map_nil, List.flatten_cons, List.flatten_nil, List.append_nil, hval_new, hval_append _ (Wb.var_ok hg v), hval_append _ (Wb.var_ok hg w), map_hval_append _ hvars, map_hval_append _ hg.can, wire]
                simp only [IMsgs.mk.injEq]
                refine ⟨?_, rfl, trivial⟩
                cases byRef <;> simp [Wb.view, List.map_set, hval]
              · intro h hh
                simp only [List.mem_cons, List.not_mem_nil, or_false] at hh
                rcases hh with rfl | rfl | rfl
                · intro o ho; simp at ho; simp; omega
                · exact (Wb.var_ok hg v).mono (hl1 _)
                · exact (Wb.var_ok hg w).mono (hl1 _)
    · simp at h
  | sendList i native ovf =>
    simp only [Wb.step] at h
    split at h
    · simp at h
    · next k hk =>
      have hm : k ∈ s.socks := List.mem_of_getElem? hk
      split at h
      · simp only [Option.some.injEq, Prod.mk.injEq] at h
        obtain ⟨rfl, rfl⟩ := h
        exact ⟨hg, rfl⟩
      · split at h
        · next hnat =>
          subst hnat
          simp only [Option.map_eq_some_iff, Prod.mk.injEq] at h
          obtain ⟨s3, h, rfl, rfl⟩ := h
          have := Wb.enq_spec (c := c) (x := []) hg hk s.vars (s.can.map (fun _ => none)) s.can (by simpa using hg.vars) (by intro h hh; simp at hh; rw [← hh.2]; exact HOk.none _) (by simpa using hg.can) (by simpa using h)
          refine ⟨this.1, ?_⟩
          rw [this.2]
          simp only [IMsgs.step, if_true, List.append_nil]
          simp [Wb.view, hval, Function.comp_def]
        · next hnat =>
          simp only [Bool.not_eq_true] at hnat
          subst hnat
          split at h
          · simp at h
          · simp only [Option.some.injEq, Prod.mk.injEq] at h
            obtain ⟨rfl, rfl⟩ := h
            exact ⟨hg, rfl⟩
          · next objs hs hp =>
            obtain ⟨e1, e2⟩ := pack2_spec hcv hr hp
            subst e1; subst e2
            simp only [Option.map_eq_some_iff, Prod.mk.injEq] at h
            obtain ⟨s3, h, rfl, rfl⟩ := h
            have := Wb.enq_spec (c := c) hg [_] hk s.vars [] _ (lift _ _ hg.vars) (by simp) ?_ h
            · refine ⟨this.1, ?_⟩
              rw [this.2]
              simp only [IMsgs.step, if_false, Bool.false_eq_true, List.map_cons, List.map_nil, List.flatten_cons, hval_new, map_hval_append _ hg.vars, map_hval_append _ hg.can, wire]
              rfl
            · intro h hh
              simp only [List.mem_cons] at hh
              rcases hh with rfl | hh
              · intro o ho; simp at ho; simp; omega
              · exact (hg.can h hh).mono (hl1 _)
  | take i max =>
    simp only [Wb.step] at h
    split at h
    · simp at h
    · next k hk =>
      have hm : k ∈ s.socks := List.mem_of_getElem? hk
      split at h
      · next hfl =>
        simp only [Option.some.injEq, Prod.mk.injEq] at h
        obtain ⟨rfl, rfl⟩ := h
        obtain ⟨e1, e2⟩ := take_spec (hg.exact k hm) max
        have hi := hg.items k hm
        refine replace_sock hg hk ?_ ?_ e1 ?_
        · intro h hh; exact hi h (by rw [e2]; exact List.mem_append_right _ hh)
        · intro h hh; exact hi h (by rw [e2]; exact List.mem_append_left _ hh)
        · simp only [WSock.bytes, hfl, List.map_nil, List.flatten_nil, List.append_nil]
          conv => rhs; rw [e2]
          simp only [List.map_append, List.flatten_append, List.append_assoc]
      · simp at h
  | wrote i =>
    simp only [Wb.step] at h
    split at h
    · simp at h
    · next k hk =>
      have hm : k ∈ s.socks := List.mem_of_getElem? hk
      simp only [Option.some.injEq, Prod.mk.injEq] at h
      obtain ⟨rfl, rfl⟩ := h
      exact replace_sock hg hk (hg.items k hm) (by simp) (hg.exact k hm) (by simp [WSock.bytes])

end StAsio
