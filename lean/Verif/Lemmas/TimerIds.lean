import Verif.Spec.TimerIds
import Verif.Lemmas.Timer
set_option autoImplicit false
namespace StAsio

/-- The table without the timers of others. -/
def Tms.own (p : Nat → Bool) (l : Tms) : Tms := l.filter fun t => p t.id

theorem Tms.own_modify (p : Nat → Bool) (j : Nat) (f : Tm → Tm) (hf : ∀ t, (f t).id = t.id) (l : Tms) :
    (Tms.modify j f l).own p = if p j then Tms.modify j f (l.own p) else l.own p := by
  induction l with
  | nil => simp [Tms.own, Tms.modify]
  | cons t l ih =>
    simp only [Tms.own] at ih ⊢
    by_cases ht : t.id = j
    · subst ht
      by_cases hp : p t.id = true <;> simp [Tms.modify, hp, hf]
    · by_cases hp : p t.id = true
      · by_cases hj : p j = true <;> simp_all [Tms.modify]
      · by_cases hj : p j = true <;> simp_all [Tms.modify]

theorem Tms.own_find (p : Nat → Bool) (l : Tms) (j : Nat) (hj : p j = true) : (l.own p).find j = l.find j := by
  induction l with
  | nil => rfl
  | cons t l ih =>
    simp only [Tms.own, Tms.find] at ih ⊢
    by_cases ht : t.id = j
    · subst ht
      simp [hj]
    · by_cases hp : p t.id = true <;> simp [hp, ht, ih]

theorem Tms.own_map (p : Nat → Bool) (f : Tm → Tm) (hf : ∀ t, (f t).id = t.id) (l : Tms) : Tms.own p (l.map f) = (l.own p).map f := by
  induction l with
  | nil => rfl
  | cons t l ih =>
    simp only [Tms.own] at ih ⊢
    by_cases hp : p t.id = true <;> simp [hp, hf, ih]

theorem Tms.own_append (p : Nat → Bool) (l m : Tms) : Tms.own p (l ++ m) = l.own p ++ m.own p := List.filter_append ..

theorem Tms.own_op (p : Nat → Bool) (l : Tms) (o : TOp) : (l.op o).own p = if o.concerns p then (l.own p).op o else l.own p := by
  cases o with
  | createOrUpdate id interval cb start =>
    have hn : Tms.own p (l ++ [Tm.new id]) = if p id then l.own p ++ [Tm.new id] else l.own p := by
      rw [Tms.own_append]
      by_cases hp : p id = true <;> simp [Tms.own, Tm.new, hp]
    simp only [TOp.concerns, Tms.op]
    by_cases hp : p id = true
    · simp only [hp, if_true, Tms.own_find p l id hp] at hn ⊢
      cases hf : l.find id <;> cases start <;> dsimp only <;>
        simp only [Bool.false_eq_true, if_false, if_true, Tms.own_modify p id (fun t => t.start.1) (fun t => t.start_id), Tms.own_modify p id (fun t => { t with interval, cb := some cb }) (by intro; rfl), hp, hn]
    · simp only [hp, Bool.false_eq_true, if_false] at hn ⊢
      cases hf : l.find id <;> cases start <;> dsimp only <;>
        simp only [Bool.false_eq_true, if_false, if_true, Tms.own_modify p id (fun t => t.start.1) (fun t => t.start_id), Tms.own_modify p id (fun t => { t with interval, cb := some cb }) (by intro; rfl), hp, hn]
  | start id => exact Tms.own_modify p id _ (fun t => t.start_id) l
  | stop id => exact Tms.own_modify p id _ Tm.stop_id l
  | stopAll => simpa [TOp.concerns, Tms.op] using Tms.own_map p _ Tm.stop_id l
  | stopAllBut id => simpa [TOp.concerns, Tms.op] using Tms.own_map p (fun t => if t.id ≠ id then t.stop else t) (fun t => by split <;> simp [Tm.stop_id]) l
  | cancelStatus id => exact Tms.own_modify p id _ (by intro; rfl) l
  | changeInterval id interval => exact Tms.own_modify p id _ (by intro; rfl) l
  | changeCallBack id cb => exact Tms.own_modify p id _ (by intro; rfl) l

theorem Tms.own_ops (p : Nat → Bool) (os : List TOp) (l : Tms) : (os.foldl Tms.op l).own p = (os.filter (TOp.concerns p)).foldl Tms.op (l.own p) := by
  induction os generalizing l with
  | nil => rfl
  | cons o os ih =>
    rw [List.foldl_cons, ih, Tms.own_op]
    by_cases h : o.concerns p = true
    · simp [h]
    · simp [h]

theorem Tms.run_ops (os : List TOp) (l : Tms) : Tms.Run l (os.map .op) (os.foldl Tms.op l) [] := by
  induction os generalizing l with
  | nil => exact .nil _
  | cons o os ih => exact Tms.run_trans (Tms.run_one (a := .op o) rfl) (ih _)

theorem firedOf_append (p : Nat → Bool) (a b : List TEv) : firedOf p (a ++ b) = firedOf p a ++ firedOf p b := List.filter_append ..

theorem Tms.own_run (p : Nat → Bool) {as : List TAct} {l : Tms} {es : List TEv} (hr : Tms.Run [] as l es) :
    ∃ bs fs, TOwn p as bs ∧ Tms.Run [] bs (l.own p) fs ∧ firedOf p fs = firedOf p es := by
  generalize he : ([] : Tms) = l0 at hr
  induction hr with
  | nil => subst he; exact ⟨[], [], .nil, .nil _, rfl⟩
  | snoc l1 l2 as a es es' hr hs ih =>
    subst he
    obtain ⟨bs, fs, h1, h2, h3⟩ := ih
    cases a with
    | op o =>
      simp only [Tms.step, Option.some.injEq, Prod.mk.injEq] at hs
      obtain ⟨rfl, rfl⟩ := hs
      rw [Tms.own_op]
      by_cases hc : o.concerns p = true
      · refine ⟨_, _, .op o h1 hc, Tms.run_trans h2 (Tms.run_one (a := .op o) (es := []) (by rw [if_pos hc]; rfl)), by simp [h3]⟩
      · rw [if_neg hc]
        exact ⟨_, _, .otherOp o h1 (by simpa using hc), h2, by simp [h3]⟩
    | expire id =>
      simp only [Tms.step] at hs
      split at hs
      · cases hs
      · rename_i t ht
        split at hs
        · cases hs
        · rename_i q g hq
          simp only [Option.some.injEq, Prod.mk.injEq] at hs
          obtain ⟨rfl, rfl⟩ := hs
          rw [Tms.own_modify p id _ (by intro; rfl)]
          by_cases hp : p id = true
          · rw [if_pos hp]
            refine ⟨_, _, .expire id h1 hp, Tms.run_trans h2 (Tms.run_one (a := .expire id) (es := []) ?_), by simp [h3]⟩
            simp only [Tms.step, Tms.own_find p l1 id hp, ht, hq]
          · rw [if_neg hp]
            exact ⟨_, _, .otherExpire id h1 (by simpa using hp), h2, by simp [h3]⟩
    | run id i script ret =>
      simp only [Tms.step] at hs
      split at hs
      · cases hs
      · rename_i t ht
        split at hs
        · cases hs
        · rename_i w hw
          by_cases hp : p id = true
          · have hm : ∀ m : Tms, (Tms.modify id (fun t => { t with queue := t.queue.eraseIdx i }) m).own p = Tms.modify id (fun t => { t with queue := t.queue.eraseIdx i }) (m.own p) := by
              intro m; rw [Tms.own_modify p id _ (by intro; rfl), if_pos hp]
            have ha : ∀ (m : Tms) q r, (Tms.modify id (Tm.after q r) m).own p = Tms.modify id (Tm.after q r) (m.own p) := by
              intro m q r; rw [Tms.own_modify p id _ (Tm.after_id q r), if_pos hp]
            split at hs
            · rename_i hst
              split at hs
              · rename_i hcb
                simp only [Option.some.injEq, Prod.mk.injEq] at hs
                obtain ⟨rfl, rfl⟩ := hs
                refine ⟨_, _, .run id i script ret h1 hp, Tms.run_trans h2 (Tms.run_one (es := [.bad]) ?_), by simp [firedOf_append, h3]⟩
                simp only [Tms.step, Tms.own_find p l1 id hp, ht, hw, hst, hcb, hm]
                simp
              · rename_i cb hcb
                simp only [Option.some.injEq, Prod.mk.injEq] at hs
                obtain ⟨rfl, rfl⟩ := hs
                refine ⟨_, _, .run id i script ret h1 hp, Tms.run_trans h2 (Tms.run_one (es := [.fired id w.gen cb]) ?_), by simp [firedOf_append, h3]⟩
                simp only [Tms.step, Tms.own_find p l1 id hp, ht, hw, hst, hcb, ha, Tms.own_ops, hm]
                simp
            · rename_i hst
              simp only [Option.some.injEq, Prod.mk.injEq] at hs
              obtain ⟨rfl, rfl⟩ := hs
              refine ⟨_, _, .run id i script ret h1 hp, Tms.run_trans h2 (Tms.run_one (es := []) ?_), by simp [h3]⟩
              simp only [Tms.step, Tms.own_find p l1 id hp, ht, hw, hst, ha, hm]
              simp
          · have hp' : p id = false := by simpa using hp
            have hm : ∀ (m : Tms) (f : Tm → Tm), (∀ t, (f t).id = t.id) → (Tms.modify id f m).own p = m.own p := by
              intro m f hf; rw [Tms.own_modify p id f hf, if_neg hp]
            split at hs
            · rename_i hst
              split at hs
              · simp only [Option.some.injEq, Prod.mk.injEq] at hs
                obtain ⟨rfl, rfl⟩ := hs
                rw [hm _ _ (by intro; rfl)]
                exact ⟨_, _, .otherAborted id i script ret h1 hp', h2, by simp [firedOf_append, h3]; rfl⟩
              · rename_i cb hcb
                simp only [Option.some.injEq, Prod.mk.injEq] at hs
                obtain ⟨rfl, rfl⟩ := hs
                rw [hm _ _ (Tm.after_id _ _), Tms.own_ops, hm _ _ (by intro; rfl)]
                exact ⟨_, _, .otherRun id i script ret h1 hp', Tms.run_trans h2 (Tms.run_ops _ _), by simp [firedOf_append, h3]; simp [firedOf, hp']⟩
            · simp only [Option.some.injEq, Prod.mk.injEq] at hs
              obtain ⟨rfl, rfl⟩ := hs
              rw [hm _ _ (Tm.after_id _ _), hm _ _ (by intro; rfl)]
              exact ⟨_, _, .otherAborted id i script ret h1 hp', h2, by simp [h3]⟩

theorem Tms.running_own (p : Nat → Bool) (l : Tms) : runningOf p (l.own p) = runningOf p l := by
  simp only [runningOf, Tms.own, List.filter_filter]
  congr 1
  apply List.filter_congr
  intro t _
  cases p t.id <;> simp

/-- Space for all ranges of IDs. -/
def TClass.total (cs : List TClass) : Nat := (cs.map TClass.size).sum

theorem timerEnd_from (cs : List TClass) (b : Nat) (hb : b + TClass.total cs < 65536) : cs.foldl TClass.endFrom b = b + TClass.total cs := by
  induction cs generalizing b with
  | nil => simp [TClass.total]
  | cons c cs ih =>
    simp only [TClass.total, List.map_cons, List.sum_cons] at hb ih ⊢
    rw [List.foldl_cons, ih]
    · simp only [TClass.endFrom]; rw [Nat.mod_eq_of_lt (by omega)]; omega
    · simp only [TClass.endFrom]; rw [Nat.mod_eq_of_lt (by omega)]; omega

theorem timerIdsFrom_range (cs : List TClass) (b : Nat) (hb : b + TClass.total cs < 65536) (hc : ∀ c ∈ cs, ∀ o ∈ c.used, o < c.size) :
    ∀ id ∈ (timerIdsFrom b cs).flatten, b ≤ id ∧ id < b + TClass.total cs := by
  induction cs generalizing b with
  | nil => simp [timerIdsFrom]
  | cons c cs ih =>
    simp only [TClass.total, List.map_cons, List.sum_cons] at hb ih ⊢
    intro id hid
    simp only [timerIdsFrom, List.flatten_cons, List.mem_append] at hid
    rcases hid with hid | hid
    · simp only [TClass.ids, List.mem_map] at hid
      obtain ⟨o, ho, rfl⟩ := hid
      have := hc c (by simp) o ho
      rw [Nat.mod_eq_of_lt (by omega)]
      omega
    · have he : c.endFrom b = b + c.size := by simp only [TClass.endFrom]; rw [Nat.mod_eq_of_lt (by omega)]
      rw [he] at hid
      have := ih (b + c.size) (by omega) (fun c hc' => hc c (by simp [hc'])) id hid
      omega

theorem timerIdsFrom_nodup (cs : List TClass) (b : Nat) (hb : b + TClass.total cs < 65536) (hc : ∀ c ∈ cs, c.used.Nodup ∧ ∀ o ∈ c.used, o < c.size) :
    (timerIdsFrom b cs).flatten.Nodup := by
  induction cs generalizing b with
  | nil => simp [timerIdsFrom]
  | cons c cs ih =>
    have hb' := hb
    simp only [TClass.total, List.map_cons, List.sum_cons] at hb'
    have he : c.endFrom b = b + c.size := by simp only [TClass.endFrom]; rw [Nat.mod_eq_of_lt (by omega)]
    simp only [timerIdsFrom, List.flatten_cons, he]
    have hc1 := hc c (by simp)
    have ht : b + c.size + TClass.total cs < 65536 := by simp only [TClass.total]; omega
    rw [List.nodup_append]
    refine ⟨?_, ih (b + c.size) ht (fun c hc' => hc c (by simp [hc'])), ?_⟩
    · simp only [TClass.ids, List.Nodup, List.pairwise_map]
      refine hc1.1.imp_of_mem ?_
      intro x y hx hy hxy
      have := hc1.2 x hx; have := hc1.2 y hy
      rw [Nat.mod_eq_of_lt (by omega), Nat.mod_eq_of_lt (by omega)]
      omega
    · intro x hx y hy
      simp only [TClass.ids, List.mem_map] at hx
      obtain ⟨o, ho, rfl⟩ := hx
      have := hc1.2 o ho
      rw [Nat.mod_eq_of_lt (by omega)]
      have := timerIdsFrom_range cs (b + c.size) ht (fun c hc' => (hc c (by simp [hc'])).2) y hy
      omega

end StAsio
