import Verif.Model.Wrapped
import Verif.Lemmas.SendBuffer
import Verif.Lemmas.Sending
/-!
Messages that are objects behave like byte strings: simulation of `Wb` by `IMsgs`.
-/
set_option linter.unusedSimpArgs false
set_option autoImplicit false
namespace StAsio

/-- The message points to an object that exists, or is null. -/
def HOk (n : Nat) (h : Hdl) : Prop := ∀ o, h = some o → o < n

theorem hval_append {objs : List Bytes} (x : List Bytes) {h : Hdl} (hh : HOk objs.length h) : hval (objs ++ x) h = hval objs h := by
  cases h with
  | none => rfl
  | some o =>
    have := hh o rfl
    simp [hval, List.getD_eq_getElem?_getD, List.getElem?_append_left this]

theorem hval_new (objs : List Bytes) (b : Bytes) : hval (objs ++ [b]) (some objs.length) = b := by simp [hval]

theorem hval_set {objs : List Bytes} {o : Nat} (b : Bytes) {h : Hdl} (hh : h ≠ some o) : hval (objs.set o b) h = hval objs h := by
  cases h with
  | none => rfl
  | some p =>
    have : o ≠ p := fun e => hh (by rw [e])
    simp [hval, List.getD_eq_getElem?_getD, List.getElem?_set, this]

theorem map_hval_append {objs : List Bytes} (x : List Bytes) {l : List Hdl} (hl : ∀ h ∈ l, HOk objs.length h) : l.map (hval (objs ++ x)) = l.map (hval objs) :=
  List.map_congr_left (fun h hh => hval_append x (hl h hh))

theorem map_hval_set {objs : List Bytes} {o : Nat} (b : Bytes) {l : List Hdl} (hl : some o ∉ l) : l.map (hval (objs.set o b)) = l.map (hval objs) :=
  List.map_congr_left (fun _ hh => hval_set b (fun e => hl (e ▸ hh)))

theorem sumSize_hsize (objs : List Bytes) (l : List Hdl) : sumSize (hsize objs) l = ((l.map (hval objs)).map List.length).sum := by
  induction l with
  | nil => rfl
  | cons a l ih => simp only [sumSize_cons, ih, List.map_cons, List.sum_cons, hsize]

theorem exact_congr {objs objs' : List Bytes} {q : Q Hdl} (h : q.items.map (hval objs') = q.items.map (hval objs)) (he : q.Exact (hsize objs)) : q.Exact (hsize objs') := by
  unfold Q.Exact at *
  rw [he, sumSize_hsize, sumSize_hsize, h]

/-- All bytes a socket has taken over: written, being written, in the send buffer. -/
def WSock.bytes (objs : List Bytes) (k : WSock) : Bytes := k.wire ++ (k.flight.map (hval objs)).flatten ++ (k.q.items.map (hval objs)).flatten

def Wb.view (s : Wb) : IMsgs := { vars := s.vars.map (hval s.objs), can := s.can.map (hval s.objs), out := s.socks.map (WSock.bytes s.objs) }

structure Wb.Good (s : Wb) : Prop where
  vars : ∀ h ∈ s.vars, HOk s.objs.length h
  can : ∀ h ∈ s.can, HOk s.objs.length h
  items : ∀ k ∈ s.socks, ∀ h ∈ k.q.items, HOk s.objs.length h
  flight : ∀ k ∈ s.socks, ∀ h ∈ k.flight, HOk s.objs.length h
  exact : ∀ k ∈ s.socks, k.q.Exact (hsize s.objs)
  fine : s.bad = false

theorem HOk.mono {n m : Nat} {h : Hdl} (hh : HOk n h) (hle : n ≤ m) : HOk m h := fun o ho => Nat.lt_of_lt_of_le (hh o ho) hle

theorem HOk.none (n : Nat) : HOk n none := fun _ h => by simp at h

theorem Wb.var_ok {s : Wb} (hg : s.Good) (v : Nat) : HOk s.objs.length (s.var v) := by
  unfold Wb.var
  rw [List.getD_eq_getElem?_getD]
  cases hv : s.vars[v]? with
  | none => exact HOk.none _
  | some h => exact hg.vars h (List.mem_of_getElem? hv)

theorem Wb.view_var (s : Wb) (v : Nat) : s.view.var v = hval s.objs (s.var v) := by
  simp only [IMsgs.var, Wb.view, Wb.var, List.getD_eq_getElem?_getD, List.getElem?_map]
  cases s.vars[v]? <;> rfl

theorem map_set' {α β : Type} (f : α → β) (l : List α) (i : Nat) (a : α) : (l.set i a).map f = (l.map f).set i (f a) := by
  rw [List.map_set]

theorem set_modify {α β : Type} {l : List α} {i : Nat} {k k' : α} (f f' : α → List β) (x : List β) (hk : l[i]? = some k) (ho : ∀ a ∈ l, f' a = f a) (he : f' k' = f k ++ x) :
    (l.set i k').map f' = (l.map f).modify i (· ++ x) := by
  apply List.ext_getElem?
  intro j
  simp only [List.getElem?_map, List.getElem?_set, List.getElem?_modify]
  by_cases hij : i = j
  · subst hij
    have hlt : i < l.length := (List.getElem?_eq_some_iff.mp hk).1
    simp only [if_true, hlt, hk, Option.map_some, he, Option.map_eq_map]
  · simp only [hij, if_false]
    cases hj : l[j]? with
    | none => rfl
    | some a => simp [ho a (List.mem_of_getElem? hj)]

/-- The effect of putting messages into a send buffer. -/
theorem Wb.put_spec {s : Wb} (hg : s.Good) (x : List Bytes) {i : Nat} {k : WSock} (hk : s.socks[i]? = some k) (vars can hs : List Hdl) (q : Q Hdl)
    (hv : ∀ h ∈ vars, HOk (s.objs ++ x).length h) (hc : ∀ h ∈ can, HOk (s.objs ++ x).length h) (hh : ∀ h ∈ hs, HOk (s.objs ++ x).length h)
    (hq : q.items = k.q.items ++ hs) (he : q.Exact (hsize (s.objs ++ x))) :
    Wb.Good { s with objs := s.objs ++ x, vars, can, socks := s.socks.set i { k with q } } ∧
    Wb.view { s with objs := s.objs ++ x, vars, can, socks := s.socks.set i { k with q } } =
      { vars := vars.map (hval (s.objs ++ x)), can := can.map (hval (s.objs ++ x)), out := s.view.out.modify i (· ++ (hs.map (hval (s.objs ++ x))).flatten) } := by
  have hm : k ∈ s.socks := List.mem_of_getElem? hk
  have hle : s.objs.length ≤ (s.objs ++ x).length := by simp
  refine ⟨⟨hv, hc, ?_, ?_, ?_, hg.fine⟩, ?_⟩
  · intro a ha h hh'
    rcases List.mem_or_eq_of_mem_set ha with ha | rfl
    · exact (hg.items a ha h hh').mono hle
    · simp only [hq, List.mem_append] at hh'
      rcases hh' with hh' | hh'
      · exact (hg.items k hm h hh').mono hle
      · exact hh h hh'
  · intro a ha h hh'
    rcases List.mem_or_eq_of_mem_set ha with ha | rfl
    · exact (hg.flight a ha h hh').mono hle
    · exact (hg.flight k hm h hh').mono hle
  · intro a ha
    rcases List.mem_or_eq_of_mem_set ha with ha | rfl
    · exact exact_congr (map_hval_append x (hg.items a ha)) (hg.exact a ha)
    · exact he
  · simp only [Wb.view, IMsgs.mk.injEq, true_and]
    apply set_modify _ _ _ hk
    · intro a ha
      simp only [WSock.bytes, map_hval_append x (hg.items a ha), map_hval_append x (hg.flight a ha)]
    · simp only [WSock.bytes, hq, List.map_append, List.flatten_append, map_hval_append x (hg.items k hm), map_hval_append x (hg.flight k hm), List.append_assoc]

theorem Wb.list_exact {objs : List Bytes} {k : WSock} {hs : List Hdl} {q : Q Hdl} (he : k.q.Exact (hsize objs)) (h : doDirectList (hsize objs) k.q hs false = some q) :
    q.items = k.q.items ++ hs ∧ q.Exact (hsize objs) := by
  rw [doDirectList_eq] at h
  simp only [Option.some.injEq] at h
  subst h
  refine ⟨by simp, ?_⟩
  unfold Q.Exact at *
  simp only [Bool.false_eq_true, if_false, sumSize_append, he, w64add]
  omega

theorem pack2_spec {c : Cfg} (hv : c.Valid) {nd : Bool} (hr : c.bufSize < 256 ^ c.headLen ∨ nd = false) {objs objs' : List Bytes} {hs hs' : List Hdl} (h : pack2 c nd objs hs = some (some (objs', hs'))) :
    objs' = objs ++ [be c.headLen (c.headLen + (hs.map (hval objs)).flatten.length)] ∧ hs' = some objs.length :: hs := by
  unfold pack2 at h
  have hlen : ∀ l : List Bytes, sizeInByte l = l.flatten.length := by
    intro l
    induction l with
    | nil => rfl
    | cons a l ih => simp only [sizeInByte, ih, List.flatten_cons, List.length_append]
  simp only [hlen] at h
  split at h
  · simp at h
  · next hmax =>
    cases hp : packHeader c nd (hs.map (hval objs)).flatten.length with
    | none => simp only [hp, Option.map_none, reduceCtorEq] at h
    | some head =>
      simp only [hp, Option.map_some, Option.some.injEq, Prod.mk.injEq] at h
      have hv1 := hv.1
      unfold maxMsgSize at hmax
      have := packHeader_head c nd hr _ head (by omega) hp
      rw [← h.1, ← h.2]
      exact ⟨by rw [this.2], rfl⟩

end StAsio
