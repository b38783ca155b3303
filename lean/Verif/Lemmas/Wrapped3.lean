import Verif.Lemmas.Wrapped2
/-!
With unique_buffer every object is in one place only.
-/
set_option linter.unusedSimpArgs false
set_option autoImplicit false
namespace StAsio

def WSock.uses (o : Nat) (k : WSock) : Nat := (k.q.items ++ k.flight).count (some o)

theorem flat_count (o : Nat) (l : List WSock) : (l.flatMap (fun k => k.q.items ++ k.flight)).count (some o) = (l.map (WSock.uses o)).sum := by
  induction l with
  | nil => rfl
  | cons k l ih => simp only [List.flatMap_cons, List.count_append, List.map_cons, List.sum_cons, ih, WSock.uses]

theorem useCount_eq (s : Wb) (o : Nat) : s.useCount o = s.vars.count (some o) + s.can.count (some o) + (s.socks.map (WSock.uses o)).sum := by
  unfold Wb.useCount Wb.handles
  rw [List.count_append, List.count_append, flat_count]

theorem sum_set_w {α : Type} (f : α → Nat) : ∀ (l : List α) (i : Nat) (k k' : α), l[i]? = some k → ((l.set i k').map f).sum + f k = (l.map f).sum + f k'
  | [], i, k, k', h => by simp at h
  | a :: l, 0, k, k', h => by simp at h; subst h; simp; omega
  | a :: l, i + 1, k, k', h => by
    have := sum_set_w f l i k k' (by simpa using h)
    simp only [List.set_cons_succ, List.map_cons, List.sum_cons]
    omega

theorem count_var (s : Wb) (v : Nat) (o : Nat) (hv : v < s.vars.length) (a : Hdl) : (s.vars.set v a).count (some o) + (if s.var v = some o then 1 else 0) = s.vars.count (some o) + if a = some o then 1 else 0 := by
  have hvar : s.var v = s.vars[v] := by simp [Wb.var, List.getD_eq_getElem?_getD, hv]
  have hpos : s.vars[v] = some o → 0 < s.vars.count (some o) := fun h => List.count_pos_iff.mpr (h ▸ List.getElem_mem hv)
  rw [List.count_set hv, hvar]
  simp only [beq_iff_eq]
  split
  · next h => have := hpos h; split <;> omega
  · split <;> omega

theorem Wb.new_unused {s : Wb} (hg : s.Good) : s.useCount s.objs.length = 0 := by
  unfold Wb.useCount
  apply List.count_eq_zero.mpr
  intro hm
  simp only [Wb.handles, List.mem_append, List.mem_flatMap] at hm
  have : HOk s.objs.length (some s.objs.length) := by
    rcases hm with (hm | hm) | ⟨k, hk, hm | hm⟩
    · exact hg.vars _ hm
    · exact hg.can _ hm
    · exact hg.items k hk _ hm
    · exact hg.flight k hk _ hm
  exact absurd (this _ rfl) (by omega)

theorem enq_uses {s s2 : Wb} {i : Nat} {k : WSock} {hs : List Hdl} (o : Nat) (hk : s.socks[i]? = some k) (h : s.enqueueList i k hs = some s2) :
    s2.vars = s.vars ∧ s2.can = s.can ∧ (s2.socks.map (WSock.uses o)).sum = (s.socks.map (WSock.uses o)).sum + hs.count (some o) := by
  unfold Wb.enqueueList at h
  simp only [Option.map_eq_some_iff] at h
  obtain ⟨q, hq, rfl⟩ := h
  rw [doDirectList_eq] at hq
  simp only [Option.some.injEq] at hq
  subst hq
  refine ⟨rfl, rfl, ?_⟩
  have := sum_set_w (WSock.uses o) s.socks i k { k with q := ⟨k.q.items ++ hs, w64add k.q.total (sumSize (hsize s.objs) hs % 2 ^ 64)⟩ } hk
  have e : WSock.uses o { k with q := ⟨k.q.items ++ hs, w64add k.q.total (sumSize (hsize s.objs) hs % 2 ^ 64)⟩ } = k.uses o + hs.count (some o) := by
    simp only [WSock.uses, List.count_append]
    omega
  simp only [Bool.false_eq_true, if_false]
  omega

theorem pack2_new {c : Cfg} {nd : Bool} {objs objs' : List Bytes} {hs hs' : List Hdl} (h : pack2 c nd objs hs = some (some (objs', hs'))) : hs' = some objs.length :: hs := by
  unfold pack2 at h
  simp only at h
  split at h
  · simp at h
  · simp only [Option.map_eq_some_iff, Option.some.injEq, Prod.mk.injEq] at h
    obtain ⟨_, _, _, h⟩ := h
    exact h.symm

theorem Wb.unique_step {c : Cfg} {nd : Bool} {limit : Nat} {s s2 : Wb} {a : WAct} {ok : Bool} (hg : s.Good) (h : s.step c nd false limit a = some (s2, ok)) (o : Nat) :
    s2.useCount o ≤ s.useCount o + if o = s.objs.length then 1 else 0 := by
  rw [useCount_eq, useCount_eq]
  have hsym : ∀ n : Nat, (some n = some o) = (n = o) := by simp
  cases a with
  | make v b =>
    simp only [Wb.step] at h
    split at h
    · next hv =>
      simp only [Option.some.injEq, Prod.mk.injEq] at h
      obtain ⟨rfl, rfl⟩ := h
      have := count_var s v o hv (some s.objs.length)
      simp only [hsym, eq_comm (a := s.objs.length)] at this
      simp only
      split at this <;> split at this <;> split <;> omega
    · simp at h
  | clear v =>
    simp only [Wb.step] at h
    split at h
    · next hv =>
      simp only [Option.some.injEq, Prod.mk.injEq] at h
      obtain ⟨rfl, rfl⟩ := h
      have := count_var s v o hv none
      simp only [reduceCtorEq, if_false] at this
      simp only
      omega
    · simp at h
  | copy v w => simp [Wb.step] at h
  | swap v w =>
    simp only [Wb.step] at h
    split at h
    · next hv =>
      simp only [Option.some.injEq, Prod.mk.injEq] at h
      obtain ⟨rfl, rfl⟩ := h
      have h1 := count_var s v o hv.1 (s.var w)
      have h2 := count_var { s with vars := s.vars.set v (s.var w) } w o (by simpa using hv.2) (s.var v)
      have h3 : Wb.var { s with vars := s.vars.set v (s.var w) } w = s.var w := by
        simp only [Wb.var, List.getD_eq_getElem?_getD, List.getElem?_set]
        split
        · next e => subst e; simp [hv.1]
        · rfl
      rw [h3] at h2
      simp only at h2 ⊢
      omega
    · simp at h
  | change v b =>
    simp only [Wb.step] at h
    split at h
    · simp at h
    · simp only [Option.some.injEq, Prod.mk.injEq] at h
      obtain ⟨rfl, rfl⟩ := h
      simp only
      omega
  | push v =>
    simp only [Wb.step] at h
    split at h
    · next hv =>
      simp only [Option.some.injEq, Prod.mk.injEq] at h
      obtain ⟨rfl, rfl⟩ := h
      have := count_var s v o hv none
      simp only [reduceCtorEq, if_false] at this
      simp only [List.count_append, List.count_singleton, beq_iff_eq]
      split at this <;> simp_all <;> omega
    · simp at h
  | send i native ovf byRef v =>
    simp only [Wb.step, Bool.false_eq_true, false_or] at h
    split at h
    · next hv =>
      obtain ⟨hb, hv⟩ := hv
      subst hb
      have hc := count_var s v o hv none
      simp only [reduceCtorEq, if_false, Nat.add_zero] at hc
      split at h
      · simp at h
      · next k hk =>
        split at h
        · simp only [Option.some.injEq, Prod.mk.injEq] at h
          obtain ⟨rfl, rfl⟩ := h
          omega
        · split at h
          · simp only [Option.some.injEq, Prod.mk.injEq] at h
            obtain ⟨rfl, rfl⟩ := h
            simp only [Wb.enqueueOne, doDirectOne]
            by_cases he : hsize s.objs (s.var v) = 0
            · simp only [he, if_true, Bool.false_eq_true, and_false, if_false]
              have := sum_set_w (WSock.uses o) s.socks i k k hk
              have e : s.socks.set i { q := k.q, flight := k.flight, wire := k.wire } = s.socks.set i k := rfl
              rw [e]
              omega
            · simp only [he, if_false, Bool.false_eq_true, Q.enqueue, if_true, and_true]
              have := sum_set_w (WSock.uses o) s.socks i k { k with q := ⟨k.q.items ++ [s.var v], w64add k.q.total (hsize s.objs (s.var v))⟩ } hk
              have e : WSock.uses o { k with q := ⟨k.q.items ++ [s.var v], w64add k.q.total (hsize s.objs (s.var v))⟩ } = k.uses o + if s.var v = some o then 1 else 0 := by
                simp only [WSock.uses, List.count_append, List.count_singleton, beq_iff_eq]
                omega
              omega
          · split at h
            · simp at h
            · simp only [Option.some.injEq, Prod.mk.injEq] at h
              obtain ⟨rfl, rfl⟩ := h
              omega
            · next objs hs hp =>
              have e2 := pack2_new hp
              subst e2
              simp only [Option.map_eq_some_iff, Prod.mk.injEq] at h
              obtain ⟨s3, h, rfl, rfl⟩ := h
              obtain ⟨f1, f2, f3⟩ := enq_uses (s := { s with objs := objs, vars := if true = true then s.vars.set v none else s.vars }) o hk h
              rw [f1, f2, f3]
              simp only [if_true, List.count_cons, List.count_nil, beq_iff_eq, hsym, eq_comm (a := s.objs.length)]
              split at hc <;> split <;> simp_all <;> omega
    · simp at h
  | send2 i native ovf byRef v w =>
    simp only [Wb.step, Bool.false_eq_true, false_or] at h
    split at h
    · next hv =>
      obtain ⟨hb, hv, hw⟩ := hv
      subst hb
      simp only [true_and, if_true] at h
      have hc : ((s.vars.set v none).set w none).count (some o) + [s.var v, if v = w then none else s.var w].count (some o) = s.vars.count (some o) := by
        have h1 := count_var s v o hv none
        have h2 := count_var { s with vars := s.vars.set v none } w o (by simpa using hw) none
        have h3 : Wb.var { s with vars := s.vars.set v none } w = if v = w then none else s.var w := by
          simp only [Wb.var, List.getD_eq_getElem?_getD, List.getElem?_set]
          split
          · next e => subst e; simp [hv]
          · rfl
        rw [h3] at h2
        simp only [reduceCtorEq, if_false, Nat.add_zero] at h1 h2
        simp only [List.count_cons, List.count_nil, beq_iff_eq]
        omega
      split at h
      · simp at h
      · next k hk =>
        split at h
        · simp only [Option.some.injEq, Prod.mk.injEq] at h
          obtain ⟨rfl, rfl⟩ := h
          omega
        · split at h
          · simp only [Option.map_eq_some_iff, Prod.mk.injEq] at h
            obtain ⟨s3, h, rfl, rfl⟩ := h
            obtain ⟨f1, f2, f3⟩ := enq_uses (s := { s with vars := (s.vars.set v none).set w none }) o hk h
            rw [f1, f2, f3]
            simp only
            omega
          · split at h
            · simp at h
            · simp only [Option.some.injEq, Prod.mk.injEq] at h
              obtain ⟨rfl, rfl⟩ := h
              omega
            · next objs hs hp =>
              have e2 := pack2_new hp
              subst e2
              simp only [Option.map_eq_some_iff, Prod.mk.injEq, List.take_succ_cons, List.take_zero, List.cons_append, List.nil_append] at h
              obtain ⟨s3, h, rfl, rfl⟩ := h
              obtain ⟨f1, f2, f3⟩ := enq_uses (s := { s with objs := objs, vars := (s.vars.set v none).set w none }) o hk h
              rw [f1, f2, f3]
              rw [List.count_cons]
              generalize [s.var v, if v = w then none else s.var w] = tk at hc ⊢
              simp only [beq_iff_eq, hsym, eq_comm (a := s.objs.length)]
              split <;> omega
    · simp at h
  | sendList i native ovf =>
    simp only [Wb.step] at h
    split at h
    · simp at h
    · next k hk =>
      split at h
      · simp only [Option.some.injEq, Prod.mk.injEq] at h
        obtain ⟨rfl, rfl⟩ := h
        omega
      · split at h
        · simp only [Option.map_eq_some_iff, Prod.mk.injEq] at h
          obtain ⟨s3, h, rfl, rfl⟩ := h
          obtain ⟨f1, f2, f3⟩ := enq_uses (s := { s with can := s.can.map (fun _ => none) }) o hk h
          rw [f1, f2, f3]
          have : (s.can.map (fun _ => (none : Hdl))).count (some o) = 0 := by
            apply List.count_eq_zero.mpr
            simp
          simp only [this]
          omega
        · split at h
          · simp at h
          · simp only [Option.some.injEq, Prod.mk.injEq] at h
            obtain ⟨rfl, rfl⟩ := h
            omega
          · next objs hs hp =>
            have e2 := pack2_new hp
            subst e2
            simp only [Option.map_eq_some_iff, Prod.mk.injEq] at h
            obtain ⟨s3, h, rfl, rfl⟩ := h
            obtain ⟨f1, f2, f3⟩ := enq_uses (s := { s with objs := objs, can := [] }) o hk h
            rw [f1, f2, f3, List.count_cons]
            simp only [List.count_nil, beq_iff_eq, hsym, eq_comm (a := s.objs.length)]
            split <;> omega
  | take i max =>
    simp only [Wb.step] at h
    split at h
    · simp at h
    · next k hk =>
      split at h
      · next hfl =>
        simp only [Option.some.injEq, Prod.mk.injEq] at h
        obtain ⟨rfl, rfl⟩ := h
        have e2 := (take_spec (hg.exact k (List.mem_of_getElem? hk)) max).2
        have := sum_set_w (WSock.uses o) s.socks i k { k with q := (k.q.moveOutBytes (hsize s.objs) [] max).1, flight := (k.q.moveOutBytes (hsize s.objs) [] max).2 } hk
        have e3 : k.uses o = WSock.uses o { k with q := (k.q.moveOutBytes (hsize s.objs) [] max).1, flight := (k.q.moveOutBytes (hsize s.objs) [] max).2 } := by
          simp only [WSock.uses, List.count_append, hfl, List.count_nil, Nat.add_zero]
          conv => lhs; rw [e2]
          rw [List.count_append]
          omega
        simp only
        omega
      · simp at h
  | wrote i =>
    simp only [Wb.step] at h
    split at h
    · simp at h
    · next k hk =>
      simp only [Option.some.injEq, Prod.mk.injEq] at h
      obtain ⟨rfl, rfl⟩ := h
      have := sum_set_w (WSock.uses o) s.socks i k { k with flight := [], wire := k.wire ++ (k.flight.map (hval s.objs)).flatten } hk
      have e : WSock.uses o { k with flight := [], wire := k.wire ++ (k.flight.map (hval s.objs)).flatten } ≤ k.uses o := by
        simp only [WSock.uses, List.count_append, List.append_nil]
        omega
      simp only
      omega

end StAsio
