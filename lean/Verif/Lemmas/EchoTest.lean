import Verif.Model.EchoTest
import Verif.Props.C85_GroupLinks
set_option autoImplicit false
namespace StAsio

theorem EtEv.run_append {n m : Nat} {st : Option (Nat → List Nat)} {es fs : List EtEv} : EtEv.run n m st (es ++ fs) = (EtEv.run n m st es).bind fun st => EtEv.run n m st fs := by
  induction es generalizing st with
  | nil => rfl
  | cons e es ih =>
    simp only [List.cons_append, EtEv.run]
    cases EtEv.next n m st e with
    | none => rfl
    | some st1 => simp [ih]

theorem Et.Run.trans {env : EtEnv} {p : Et → EtAct → Bool} {s s1 s2 : Et} {as bs : List EtAct} {es fs : List EtEv} (h1 : Et.Run env p s as s1 es) (h2 : Et.Run env p s1 bs s2 fs) : Et.Run env p s (as ++ bs) s2 (es ++ fs) := by
  induction h2 with
  | nil => simpa using h1
  | snoc t1 t2 bs b gs gs' _ hp hs ih =>
    rw [← List.append_assoc, ← List.append_assoc]
    exact .snoc _ _ _ _ _ _ _ ih hp hs

theorem Et.run_one {env : EtEnv} {p : Et → EtAct → Bool} {s s1 : Et} {a : EtAct} {es : List EtEv} (hp : p s a = true) (h : s.step env a = some (s1, es)) : Et.Run env p s [a] s1 es := by
  have := Et.Run.snoc _ _ _ _ _ _ _ (Et.Run.nil (env := env) (p := p) s) hp h
  simpa using this

theorem Et.exec_run {env : EtEnv} {p : Et → EtAct → Bool} {s s' : Et} {as : List EtAct} {es : List EtEv} (h : Et.exec env p s as = some (s', es)) : Et.Run env p s as s' es := by
  induction as generalizing s es with
  | nil => simp only [Et.exec, Option.some.injEq, Prod.mk.injEq] at h; obtain ⟨rfl, rfl⟩ := h; exact .nil _
  | cons a as ih =>
    simp only [Et.exec] at h
    split at h
    · rename_i hp
      cases hs : s.step env a with
      | none => simp [hs] at h
      | some r =>
        obtain ⟨s1, es1⟩ := r
        simp only [hs, Option.bind_eq_bind, Option.bind_some] at h
        cases h2 : Et.exec env p s1 as with
        | none => simp [h2] at h
        | some q =>
          obtain ⟨s2, es2⟩ := q
          simp [h2] at h
          obtain ⟨rfl, rfl⟩ := h
          exact (Et.run_one hp hs).trans (ih h2)
    · cases h

/-! ### sums -/

theorem sum_range_le {n : Nat} {g : Nat → Nat} {i : Nat} (hi : i < n) : g i ≤ ((List.range n).map g).sum := by
  induction n with
  | zero => omega
  | succ n ih =>
    rw [List.range_succ, List.map_append, List.sum_append]
    simp only [List.map_cons, List.map_nil, List.sum_cons, List.sum_nil]
    by_cases h : i = n
    · subst h; omega
    · have := ih (by omega); omega

theorem bytes_sum {ls : List EtLink} {len : Nat} {f e : Nat → List Nat} (h : ∀ j l, ls[j]? = some l → l.bytes + len * (f j).length = len * (e j).length) :
    (ls.map (·.bytes)).sum + len * ((List.range ls.length).map fun j => (f j).length).sum = len * ((List.range ls.length).map fun j => (e j).length).sum := by
  induction ls generalizing f e with
  | nil => simp
  | cons l ls ih =>
    have h0 := h 0 l rfl
    have := ih (f := fun j => f (j + 1)) (e := fun j => e (j + 1)) (fun j l' hl => h (j + 1) l' (by simpa using hl))
    simp only [List.length_cons, List.range_succ_eq_map, List.map_cons, List.sum_cons, List.map_map, Function.comp_def, Nat.succ_eq_add_one, Nat.mul_add] at *
    omega

theorem bytes_set {ls : List EtLink} {i : Nat} {l' : EtLink} (h : ∀ l, ls[i]? = some l → l.bytes ≤ l'.bytes) : (ls.map (·.bytes)).sum ≤ ((ls.set i l').map (·.bytes)).sum := by
  induction ls generalizing i with
  | nil => simp
  | cons l ls ih =>
    cases i with
    | zero => have := h l rfl; simp; omega
    | succ i =>
      have := ih (i := i) (fun l2 hl => h l2 (by simpa using hl))
      simp only [List.set_cons_succ, List.map_cons, List.sum_cons]; omega

theorem bytes_take_set {ls : List EtLink} {i k : Nat} {l' : EtLink} (h : ∀ l, ls[i]? = some l → l.bytes ≤ l'.bytes) : ((ls.take k).map (·.bytes)).sum ≤ (((ls.set i l').take k).map (·.bytes)).sum := by
  rw [List.take_set]
  apply bytes_set
  intro l hl
  by_cases hk : i < k
  · rw [List.getElem?_take_of_lt hk] at hl; exact h l hl
  · rw [List.getElem?_take_eq_none (by omega)] at hl; cases hl

theorem count_sum {α : Type} {xs : List α} {g : α → Nat} {n : Nat} (h : ∀ x ∈ xs, g x < n) : ((List.range n).map fun i => (xs.filter fun x => g x = i).length).sum = xs.length := by
  induction xs with
  | nil =>
    simp only [List.filter_nil, List.length_nil]
    induction n with
    | zero => rfl
    | succ n ih => rw [List.range_succ, List.map_append, List.sum_append, ih (by simp)]; rfl
  | cons x xs ih =>
    have ih := ih (fun y hy => h y (by simp [hy]))
    have hx := h x (by simp)
    have key : ∀ m, ((List.range m).map fun i => ((x :: xs).filter fun y => g y = i).length).sum = ((List.range m).map fun i => (xs.filter fun y => g y = i).length).sum + if g x < m then 1 else 0 := by
      intro m
      induction m with
      | zero => rfl
      | succ m ihm =>
        rw [List.range_succ, List.map_append, List.sum_append, List.map_append, List.sum_append, ihm]
        simp only [List.map_cons, List.map_nil, List.sum_cons, List.sum_nil, List.filter_cons]
        by_cases h1 : g x = m
        · simp [h1]; omega
        · have : (g x < m + 1) ↔ (g x < m) := by omega
          simp [h1, this]; omega
    rw [key, ih]; simp [hx]

/-! ### what the threads send -/

/-- The numbers of the messages still to be sent over link i. -/
def pendOf (own : Nat → Nat) (todo : List (List (Nat × Nat))) (i : Nat) : List Nat := ((todo.getD (own i) []).filter fun x => x.1 = i).map (·.2)

theorem findGroup {gs : List (List Nat)} (h : gs.flatten.Nodup) {i j : Nat} {g : List Nat} (hj : gs[j]? = some g) (hi : i ∈ g) : gs.findIdx (fun g => g.contains i) = j := by
  induction gs generalizing j with
  | nil => simp at hj
  | cons a gs ih =>
    rw [List.flatten_cons, List.nodup_append] at h
    cases j with
    | zero =>
      simp only [List.getElem?_cons_zero, Option.some.injEq] at hj
      subst hj
      rw [List.findIdx_cons]; simp [hi]
    | succ j =>
      have hj : gs[j]? = some g := by simpa using hj
      have hna : i ∉ a := by
        intro ha
        exact h.2.2 i ha i (List.mem_flatten.mpr ⟨g, List.mem_of_getElem? hj, hi⟩) rfl
      rw [List.findIdx_cons]
      have := ih h.2.1 hj
      simp [hna] at this ⊢
      exact this

theorem filter_group {g : List Nat} {i k : Nat} (hn : g.Nodup) (hi : i ∈ g) : (g.map fun l => (l, k)).filter (fun x => x.1 = i) = [(i, k)] := by
  induction g with
  | nil => cases hi
  | cons a g ih =>
    rw [List.nodup_cons] at hn
    by_cases ha : a = i
    · subst ha
      have : (g.map fun l => (l, k)).filter (fun x => x.1 = a) = [] := by
        rw [List.filter_eq_nil_iff]
        intro x hx
        obtain ⟨l, hl, rfl⟩ := List.mem_map.mp hx
        simp only [decide_eq_true_eq]
        intro h; subst h; exact hn.1 hl
      simp [this]
    · have hi : i ∈ g := by
        rcases List.mem_cons.mp hi with h | h
        · exact absurd h.symm ha
        · exact h
      simp [ha, ih hn.2 hi]

theorem threadTodo_mem {num : Nat} {g : List Nat} {i k : Nat} (h : (i, k) ∈ threadTodo num g) : i ∈ g := by
  simp only [threadTodo, List.mem_flatMap, List.mem_map] at h
  obtain ⟨k', _, l, hl, he⟩ := h
  cases he
  exact hl

theorem threadTodo_filter {num : Nat} {g : List Nat} {i : Nat} (hn : g.Nodup) (hi : i ∈ g) : ((threadTodo num g).filter fun x => x.1 = i).map (·.2) = List.range num := by
  rw [threadTodo, List.filter_flatMap, List.map_flatMap]
  have : (fun k => ((g.map fun l => (l, k)).filter (fun x => x.1 = i)).map (·.2)) = fun k : Nat => [k] := by
    funext k; rw [filter_group hn hi]; rfl
  rw [this]
  simp

theorem randomLink_lt {n m r : Nat} (hn : 0 < n) (hm : 0 < m) (hr : r ≤ m) : randomLink n m r < n := by
  have h1 : r * (n - 1) / m ≤ m * (n - 1) / m := Nat.div_le_div_right (Nat.mul_le_mul_right _ hr)
  rw [Nat.mul_div_cancel_left _ hm] at h1
  simp only [randomLink]; omega

theorem todo_ok {env : EtEnv} (he : env.Ok) {t : EtTest} (hv : t.valid env.max = true) : ∃ td own, t.todo env = some td ∧ (∀ j i k, (i, k) ∈ td.getD j [] → own i = j ∧ i < env.n) ∧ ∀ i, i < env.n → pendOf own td i = t.expect env.n env.max i := by
  cases t with
  | conc threads num len =>
    simp only [EtTest.valid, Bool.and_eq_true, decide_eq_true_eq] at hv
    have hlen : env.order.length = env.n := by rw [he.order.length_eq, List.length_range]
    have hne : env.order ≠ [] := by
      intro h; rw [h] at hlen; have := he.n; simp at hlen; omega
    obtain ⟨gs, hg, _, hfl, _, _⟩ := C85_even hv.1.1 hne
    rw [hlen] at hg
    have hnd : gs.flatten.Nodup := by rw [hfl, he.order.nodup_iff]; exact List.nodup_range
    refine ⟨gs.map (threadTodo num), fun i => gs.findIdx (fun g => g.contains i), by simp only [EtTest.todo, hg]; rfl, ?_, ?_⟩
    · intro j i k hm
      rw [List.getD_eq_getElem?_getD, List.getElem?_map] at hm
      cases hj : gs[j]? with
      | none => simp [hj] at hm
      | some g =>
        simp only [hj, Option.map_some, Option.getD_some] at hm
        have hi := threadTodo_mem hm
        refine ⟨findGroup hnd hj hi, ?_⟩
        have : i ∈ env.order := by rw [← hfl]; exact List.mem_flatten.mpr ⟨g, List.mem_of_getElem? hj, hi⟩
        exact List.mem_range.mp (he.order.mem_iff.mp this)
    · intro i hi
      have : i ∈ gs.flatten := by rw [hfl]; exact he.order.mem_iff.mpr (List.mem_range.mpr hi)
      obtain ⟨g, hg1, hg2⟩ := List.mem_flatten.mp this
      obtain ⟨j, hj⟩ := List.mem_iff_getElem?.mp hg1
      have hgn : g.Nodup := by
        have h3 : g.Sublist gs.flatten := List.sublist_flatten_of_mem hg1
        exact hnd.sublist h3
      simp only [pendOf, findGroup hnd hj hg2, List.getD_eq_getElem?_getD, List.getElem?_map, hj, Option.map_some, Option.getD_some, EtTest.expect, if_pos hi]
      exact threadTodo_filter hgn hg2
  | rand rs len =>
    simp only [EtTest.valid, Bool.and_eq_true, decide_eq_true_eq, List.all_eq_true] at hv
    refine ⟨_, fun _ => 0, rfl, ?_, ?_⟩
    · intro j i k hm
      cases j with
      | succ j => simp at hm
      | zero =>
        simp only [List.getD_cons_zero, List.mem_map] at hm
        obtain ⟨x, hx, he'⟩ := hm
        cases he'
        refine ⟨rfl, randomLink_lt he.n he.max (hv.2 _ ?_)⟩
        exact List.fst_mem_of_mem_zipIdx hx
    · intro i _
      simp [pendOf, EtTest.expect, List.filter_map, Function.comp_def]

theorem total_ok {env : EtEnv} (he : env.Ok) {t : EtTest} (hv : t.valid env.max = true) :
    0 < t.len ∧ 0 < t.total env.n ∧ t.len * ((List.range env.n).map fun j => (t.expect env.n env.max j).length).sum = t.total env.n := by
  cases t with
  | conc threads num len =>
    simp only [EtTest.valid, Bool.and_eq_true, decide_eq_true_eq] at hv
    refine ⟨hv.2, Nat.mul_pos (Nat.mul_pos he.n hv.2) hv.1.2, ?_⟩
    have : ∀ m, m ≤ env.n → ((List.range m).map fun j => (EtTest.expect env.n env.max (.conc threads num len) j).length).sum = m * num := by
      intro m
      induction m with
      | zero => intro _; simp
      | succ m ih =>
        intro hm
        rw [List.range_succ, List.map_append, List.sum_append, ih (by omega)]
        simp only [EtTest.expect, List.map_cons, List.map_nil, List.sum_cons, List.sum_nil]
        rw [if_pos (by omega), List.length_range, Nat.succ_mul]; omega
    rw [this _ (Nat.le_refl _)]
    simp only [EtTest.len, EtTest.total]
    rw [← Nat.mul_assoc, Nat.mul_comm len]
  | rand rs len =>
    simp only [EtTest.valid, Bool.and_eq_true, decide_eq_true_eq, List.all_eq_true, Bool.not_eq_true', List.isEmpty_eq_false_iff] at hv
    refine ⟨hv.1.2, Nat.mul_pos (List.length_pos_iff.mpr hv.1.1) hv.1.2, ?_⟩
    have := count_sum (xs := rs.zipIdx) (g := fun x => randomLink env.n env.max x.1) (n := env.n) (fun x hx => randomLink_lt he.n he.max (hv.2 _ (List.fst_mem_of_mem_zipIdx hx)))
    simp only [EtTest.expect, EtTest.len, EtTest.total, List.length_map, this, List.length_zipIdx, Nat.mul_comm]

end StAsio
