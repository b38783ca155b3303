import Verif.Spec.Timers
set_option autoImplicit false
namespace StAsio

theorem Tm.abort_id (t : Tm) : t.abort.id = t.id := by unfold Tm.abort; split <;> rfl
theorem Tm.start_id (t : Tm) : t.start.1.id = t.id := by
  unfold Tm.start; split
  · rfl
  · exact Tm.abort_id _
theorem Tm.stop_id (t : Tm) : t.stop.id = t.id := by
  unfold Tm.stop; split
  · exact Tm.abort_id _
  · rfl
theorem Tm.after_id (q : Nat) (r : Bool) (t : Tm) : (Tm.after q r t).id = t.id := by
  unfold Tm.after; split
  · exact Tm.start_id t
  · split <;> rfl

theorem Tms.find_id {l : Tms} {id : Nat} {t : Tm} (h : l.find id = some t) : t.id = id := by
  have := List.find?_some h
  simpa using this

theorem Tms.find_modify (j : Nat) (f : Tm → Tm) (hf : ∀ t, (f t).id = t.id) (l : Tms) (id : Nat) :
    (Tms.modify j f l).find id = if j = id then (l.find id).map f else l.find id := by
  induction l with
  | nil => simp [Tms.modify, Tms.find]
  | cons t l ih =>
    simp only [Tms.modify]
    unfold Tms.find at *
    by_cases h1 : t.id = j
    · rw [if_pos h1]
      simp only [List.find?_cons, hf]
      by_cases h2 : t.id = id
      · simp [h2, ← h1]
      · have h3 : ¬ j = id := by omega
        have h4 : (t.id == id) = false := by simpa using h2
        simp [h3, h4]
    · rw [if_neg h1]
      simp only [List.find?_cons]
      by_cases h2 : t.id = id
      · have h3 : ¬ j = id := by omega
        simp [h2, h3]
      · simp only [ih]
        have : (t.id == id) = false := by simpa using h2
        simp [this]

theorem Tms.find_map (f : Tm → Tm) (hf : ∀ t, (f t).id = t.id) (l : Tms) (id : Nat) :
    Tms.find (List.map f l) id = (l.find id).map f := by
  induction l with
  | nil => rfl
  | cons t l ih =>
    unfold Tms.find at *
    simp only [List.map_cons, List.find?_cons, hf]
    by_cases h : t.id = id
    · simp [h]
    · have : (t.id == id) = false := by simpa using h
      simp [this, ih]

theorem Tms.find_append_new (l : Tms) (j id : Nat) (h : l.find j = none) :
    Tms.find (l ++ [Tm.new j]) id = if j = id then some (Tm.new j) else l.find id := by
  unfold Tms.find at *
  rw [List.find?_append]
  by_cases h1 : j = id
  · subst h1
    simp [h, Tm.new]
  · simp [h1, Tm.new]

/-- What an operation does to the timer `id`, by itself. -/
def TOp.on (id : Nat) (x : Option Tm) : TOp → Option Tm
  | .createOrUpdate j interval cb st =>
    if j = id then
      let t := { x.getD (Tm.new id) with interval, cb := some cb }
      some (if st then t.start.1 else t)
    else x
  | .start j => if j = id then x.map (fun t => t.start.1) else x
  | .stop j => if j = id then x.map Tm.stop else x
  | .stopAll => x.map Tm.stop
  | .stopAllBut j => if j = id then x else x.map Tm.stop
  | .cancelStatus j => if j = id then x.map (fun t => { t with status := .canceled }) else x
  | .changeInterval j interval => if j = id then x.map (fun t => { t with interval }) else x
  | .changeCallBack j cb => if j = id then x.map (fun t => { t with cb := some cb }) else x

theorem Tms.find_op (l : Tms) (o : TOp) (id : Nat) : (l.op o).find id = o.on id (l.find id) := by
  cases o with
  | createOrUpdate j interval cb start =>
    simp only [Tms.op, TOp.on]
    have hl : ∀ l' : Tms, (if start = true then Tms.modify j (fun t => t.start.1) (Tms.modify j (fun t => { t with interval, cb := some cb }) l') else
        Tms.modify j (fun t => { t with interval, cb := some cb }) l').find id =
        if j = id then (l'.find id).map (fun t => if start then ({ t with interval, cb := some cb } : Tm).start.1 else { t with interval, cb := some cb }) else l'.find id := by
      intro l'
      cases start
      · simp only [Bool.false_eq_true, if_false]
        rw [Tms.find_modify j _ (by intro _; rfl)]
      · simp only [if_true]
        rw [Tms.find_modify j _ Tm.start_id, Tms.find_modify j _ (by intro _; rfl)]
        by_cases h : j = id
        · simp only [h, if_true, Option.map_map]; rfl
        · simp [h]
    rw [hl]
    by_cases h : j = id
    · subst h
      cases hf : l.find j with
      | none => simp [Tms.find_append_new l j j hf]
      | some t => simp [hf]
    · simp only [h, if_false]
      cases hf : l.find j with
      | none => simp [Tms.find_append_new l j id hf, h]
      | some t => rfl
  | start j => exact Tms.find_modify j _ Tm.start_id l id
  | stop j => exact Tms.find_modify j _ Tm.stop_id l id
  | stopAll => exact Tms.find_map _ Tm.stop_id l id
  | stopAllBut j =>
    simp only [Tms.op, TOp.on]
    rw [Tms.find_map _ (by intro t; split; exact Tm.stop_id t; rfl)]
    cases hf : l.find id with
    | none => simp
    | some t =>
      have := Tms.find_id hf
      by_cases h : j = id
      · simp [h, this]
      · have h' : ¬ id = j := fun e => h e.symm
        simp [h, h', this]
  | cancelStatus j => simp only [Tms.op]; rw [Tms.find_modify j _ (by intro _; rfl)]; rfl
  | changeInterval j interval => simp only [Tms.op]; rw [Tms.find_modify j _ (by intro _; rfl)]; rfl
  | changeCallBack j cb => simp only [Tms.op]; rw [Tms.find_modify j _ (by intro _; rfl)]; rfl

theorem Tms.find_ops (l : Tms) (os : List TOp) (id : Nat) : (os.foldl Tms.op l).find id = os.foldl (TOp.on id) (l.find id) := by
  induction os generalizing l with
  | nil => rfl
  | cons o os ih => simp only [List.foldl_cons]; rw [ih, Tms.find_op]

/-- What an action does to the timer `id`. -/
def TAct.on (id : Nat) (x : Option Tm) (s : Tms) : TAct → Option Tm
  | .op o => o.on id x
  | .expire j => if j = id then x.map (fun t => match t.armed with | none => t | some (q, g) => { t with armed := none, queue := t.queue ++ [⟨true, q, g⟩] }) else x
  | .run j i script ret => match s.find j with
    | none => x
    | some t => match t.queue[i]? with
      | none => x
      | some w =>
        let x1 := if j = id then x.map (fun t => { t with queue := t.queue.eraseIdx i }) else x
        if t.status = .started ∧ w.ok then
          match t.cb with
          | none => x1
          | some _ => if j = id then (script.foldl (TOp.on id) x1).map (Tm.after w.seq ret) else script.foldl (TOp.on id) x1
        else if j = id then x1.map (Tm.after w.seq false) else x1

theorem Tms.find_step {l l' : Tms} {a : TAct} {es : List TEv} (h : l.step a = some (l', es)) (id : Nat) : l'.find id = a.on id (l.find id) l := by
  cases a with
  | op o => simp only [Tms.step] at h; cases h; exact Tms.find_op l o id
  | expire j =>
    simp only [Tms.step] at h
    cases hj : l.find j with
    | none => simp [hj] at h
    | some t =>
      simp only [hj] at h
      cases ha : t.armed with
      | none => simp [ha] at h
      | some p =>
        obtain ⟨q, g⟩ := p
        simp only [ha] at h
        cases h
        rw [Tms.find_modify j _ (by intro _; rfl)]
        simp only [TAct.on]
        by_cases h : j = id
        · subst h; simp [hj, ha]
        · simp [h]
  | run j i script ret =>
    simp only [Tms.step, TAct.on] at h ⊢
    cases hj : l.find j with
    | none => simp [hj] at h
    | some t =>
      simp only [hj] at h ⊢
      cases hw : t.queue[i]? with
      | none => simp [hw] at h
      | some w =>
        simp only [hw] at h ⊢
        split at h
        · rename_i hc
          simp only [hc, and_self, if_true]
          cases hcb : t.cb with
          | none =>
            simp only [hcb] at h; cases h
            rw [Tms.find_modify j _ (by intro _; rfl)]
          | some cb =>
            simp only [hcb] at h; cases h
            simp only
            rw [Tms.find_modify j _ (Tm.after_id _ _), Tms.find_ops, Tms.find_modify j _ (by intro _; rfl)]
        · rename_i hc
          rw [if_neg hc]
          cases h
          rw [Tms.find_modify j _ (Tm.after_id _ _), Tms.find_modify j _ (by intro _; rfl)]

/-! ### unique ids -/

theorem Tms.modify_ids (j : Nat) (f : Tm → Tm) (hf : ∀ t, (f t).id = t.id) (l : Tms) : (Tms.modify j f l).map Tm.id = l.map Tm.id := by
  induction l with
  | nil => rfl
  | cons t l ih =>
    simp only [Tms.modify]
    split <;> simp [hf, ih]

theorem Tms.map_ids (f : Tm → Tm) (hf : ∀ t, (f t).id = t.id) (l : Tms) : (List.map f l).map Tm.id = l.map Tm.id := by
  induction l with
  | nil => rfl
  | cons t l ih => simp [hf, ih]

theorem Tms.op_nodup (l : Tms) (o : TOp) (h : (l.map Tm.id).Nodup) : ((l.op o).map Tm.id).Nodup := by
  cases o with
  | createOrUpdate j interval cb start =>
    have key : ∀ l' : Tms, (l'.map Tm.id).Nodup →
      ((if start = true then Tms.modify j (fun t => t.start.1) (Tms.modify j (fun t => { t with interval, cb := some cb }) l') else
        Tms.modify j (fun t => { t with interval, cb := some cb }) l').map Tm.id).Nodup := by
      intro l' hl
      cases start
      · simp only [Bool.false_eq_true, if_false]
        rw [Tms.modify_ids j _ (by intro _; rfl)]; exact hl
      · simp only [if_true]
        rw [Tms.modify_ids j _ Tm.start_id, Tms.modify_ids j _ (by intro _; rfl)]; exact hl
    simp only [Tms.op]
    refine key _ ?_
    cases hf : l.find j with
    | some t => exact h
    | none =>
      simp only [List.map_append, List.map_cons, List.map_nil]
      rw [List.nodup_append]
      refine ⟨h, by simp, ?_⟩
      intro x hx y hy
      simp [Tm.new] at hy
      subst hy
      intro hxy
      subst hxy
      rw [List.mem_map] at hx
      obtain ⟨t, ht, rfl⟩ := hx
      unfold Tms.find at hf
      rw [List.find?_eq_none] at hf
      exact hf t ht (by simp)
  | start j => simp only [Tms.op]; rw [Tms.modify_ids j _ Tm.start_id]; exact h
  | stop j => simp only [Tms.op]; rw [Tms.modify_ids j _ Tm.stop_id]; exact h
  | stopAll => simp only [Tms.op]; rw [Tms.map_ids _ Tm.stop_id]; exact h
  | stopAllBut j => simp only [Tms.op]; rw [Tms.map_ids _ (by intro t; split; exact Tm.stop_id t; rfl)]; exact h
  | cancelStatus j => simp only [Tms.op]; rw [Tms.modify_ids j _ (by intro _; rfl)]; exact h
  | changeInterval j i => simp only [Tms.op]; rw [Tms.modify_ids j _ (by intro _; rfl)]; exact h
  | changeCallBack j c => simp only [Tms.op]; rw [Tms.modify_ids j _ (by intro _; rfl)]; exact h

theorem Tms.ops_nodup (l : Tms) (os : List TOp) (h : (l.map Tm.id).Nodup) : ((os.foldl Tms.op l).map Tm.id).Nodup := by
  induction os generalizing l with
  | nil => exact h
  | cons o os ih => exact ih _ (Tms.op_nodup l o h)

theorem Tms.step_nodup {l l' : Tms} {a : TAct} {es : List TEv} (h : (l.map Tm.id).Nodup) (hs : l.step a = some (l', es)) : (l'.map Tm.id).Nodup := by
  cases a with
  | op o => simp only [Tms.step] at hs; cases hs; exact Tms.op_nodup l o h
  | expire j =>
    simp only [Tms.step] at hs
    split at hs
    · cases hs
    · split at hs
      · cases hs
      · cases hs; rw [Tms.modify_ids j _ (by intro _; rfl)]; exact h
  | run j i script ret =>
    simp only [Tms.step] at hs
    split at hs
    · cases hs
    · split at hs
      · cases hs
      · split at hs
        · split at hs
          · cases hs; rw [Tms.modify_ids j _ (by intro _; rfl)]; exact h
          · cases hs; rw [Tms.modify_ids j _ (Tm.after_id _ _)]
            exact Tms.ops_nodup _ _ (by rw [Tms.modify_ids j _ (by intro _; rfl)]; exact h)
        · cases hs; rw [Tms.modify_ids j _ (Tm.after_id _ _), Tms.modify_ids j _ (by intro _; rfl)]; exact h

/-! ### the invariant of one timer -/

def Tm.waitGens (t : Tm) : List Nat := t.queue.map TWait.gen ++ (t.armed.map (fun p => p.2)).toList

/-- `r`: the schedule whose handler is running; `L`: the schedules that invoked the call back so far. -/
structure Tm.Inv (r : Option Nat) (L : List Nat) (t : Tm) : Prop where
  seq : t.seq = (t.gen + 255) % 256
  armed : ∀ q g, t.armed = some (q, g) → q = t.seq ∧ g = t.gen
  queue : ∀ w ∈ t.queue, w.gen ≤ t.gen ∧ w.seq = (w.gen + 255) % 256
  nodup : (L ++ t.waitGens).Nodup
  fired : ∀ g ∈ L, g ≤ t.gen
  live : t.status = .started → (t.armed = some (t.seq, t.gen) ∨ ⟨true, t.seq, t.gen⟩ ∈ t.queue ∨ r = some t.gen)
  cb : t.status = .started → t.cb.isSome

theorem Tm.new_inv (id : Nat) (r : Option Nat) : (Tm.new id).Inv r [] := by
  constructor <;> simp [Tm.new, Tm.waitGens]

/-- Aborting keeps all but `live`. -/
theorem Tm.abort_queue {r : Option Nat} {L : List Nat} {t : Tm} (h : t.Inv r L) : t.abort.armed = none ∧ t.abort.seq = t.seq ∧ t.abort.gen = t.gen ∧ t.abort.cb = t.cb ∧ t.abort.status = t.status ∧
    (∀ w ∈ t.abort.queue, w.gen ≤ t.gen ∧ w.seq = (w.gen + 255) % 256) ∧ (L ++ t.abort.queue.map TWait.gen).Nodup ∧
    (∀ w ∈ t.abort.queue, w.ok = true → w ∈ t.queue) ∧ (∀ w ∈ t.queue, w ∈ t.abort.queue) := by
  have hn := h.nodup
  unfold Tm.waitGens at hn
  unfold Tm.abort
  cases ha : t.armed with
  | none => simp only [ha, Option.map_none, Option.toList_none, List.append_nil] at hn ⊢; exact ⟨trivial, trivial, trivial, trivial, trivial, h.queue, hn, fun _ h _ => h, fun _ h => h⟩
  | some p =>
    obtain ⟨q, g⟩ := p
    obtain ⟨rfl, rfl⟩ := h.armed q g ha
    simp only [ha, Option.map_some, Option.toList_some] at hn ⊢
    refine ⟨trivial, trivial, trivial, trivial, trivial, ?_, by simpa using hn, ?_, ?_⟩
    · intro w hw
      rw [List.mem_append, List.mem_singleton] at hw
      rcases hw with hw | rfl
      · exact h.queue w hw
      · exact ⟨Nat.le_refl _, h.seq⟩
    · intro w hw hok
      rw [List.mem_append, List.mem_singleton] at hw
      rcases hw with hw | rfl
      · exact hw
      · cases hok
    · intro w hw; rw [List.mem_append]; exact Or.inl hw

theorem Tm.Inv.status {r : Option Nat} {L : List Nat} {t : Tm} (h : t.Inv r L) (st : TStatus) (hst : st ≠ .started) : ({ t with status := st } : Tm).Inv r L where
  seq := h.seq
  armed := h.armed
  queue := h.queue
  nodup := h.nodup
  fired := h.fired
  live := fun h' => absurd h' hst
  cb := fun h' => absurd h' hst

theorem Tm.abort_status (t : Tm) (st st' : TStatus) : (Tm.abort { t with status := st }) = { Tm.abort { t with status := st' } with status := st } := by
  unfold Tm.abort; cases t.armed <;> rfl

/-- What a start does if there is a call back. -/
theorem Tm.start_eq {r : Option Nat} {L : List Nat} {t : Tm} (h : t.Inv r L) (hcb : t.cb.isSome) : t.start.1.status = .started ∧ t.start.1.gen = t.gen + 1 ∧
    t.start.1.armed = some (t.start.1.seq, t.start.1.gen) ∧ t.start.1.cb = t.cb ∧ (∀ w ∈ t.start.1.queue, w.ok = true → w ∈ t.queue) ∧ t.start.1.Inv r L := by
  unfold Tm.start
  split
  · rename_i hc; rw [hc] at hcb; cases hcb
  · rename_i c hcb
    have h' : ({ t with status := .canceled } : Tm).Inv r L := h.status _ (by simp)
    have ha := Tm.abort_queue h'
    rw [Tm.abort_status t .started .canceled]
    generalize Tm.abort { t with status := .canceled } = u at ha
    obtain ⟨a1, a2, a3, a4, a5, a6, a7, a8, _⟩ := ha
    simp only at a2 a3 a4 a6 a8
    have hs := h.seq
    refine ⟨rfl, by simp only; rw [a3], rfl, a4, a8, ?_, ?_, ?_, ?_, ?_, ?_, ?_⟩
    · simp only; rw [a2, a3, hs]; omega
    · intro q g hq; simp only [Option.some.injEq, Prod.mk.injEq] at hq; exact ⟨hq.1.symm, hq.2.symm⟩
    · intro w hw
      have := a6 w hw
      simp only; omega
    · unfold Tm.waitGens
      simp only [Option.map_some, Option.toList_some]
      rw [← List.append_assoc, List.nodup_append]
      refine ⟨a7, by simp, ?_⟩
      intro x hx y hy
      simp at hy
      rw [List.mem_append, List.mem_map] at hx
      rcases hx with hx | ⟨w, hw, rfl⟩
      · have := h.fired x hx
        omega
      · have := a6 w hw
        omega
    · intro g hg; have := h.fired g hg; simp only; omega
    · intro _; left; rfl
    · intro _; simp only; rw [a4, hcb]; rfl

theorem Tm.start_inv {r : Option Nat} {L : List Nat} {t : Tm} (h : t.Inv r L) : t.start.1.Inv r L := by
  cases hcb : t.cb with
  | none => unfold Tm.start; rw [hcb]; exact h
  | some c => exact (Tm.start_eq h (by simp [hcb])).2.2.2.2.2

theorem Tm.stop_eq {r : Option Nat} {L : List Nat} {t : Tm} (h : t.Inv r L) : t.stop.Inv r L ∧ t.stop.status ≠ .started ∧ t.stop.gen = t.gen ∧
    (∀ w ∈ t.stop.queue, w.ok = true → w ∈ t.queue) := by
  unfold Tm.stop
  split
  · have h' : ({ t with status := .canceled } : Tm).Inv r L := h.status _ (by simp)
    have ha := Tm.abort_queue h'
    obtain ⟨a1, a2, a3, a4, a5, a6, a7, a8, _⟩ := ha
    refine ⟨⟨?_, ?_, ?_, ?_, ?_, ?_, ?_⟩, by rw [a5]; simp, a3, a8⟩
    · rw [a2, a3]; exact h.seq
    · intro q g hq; rw [a1] at hq; cases hq
    · intro w hw; rw [a3]; exact a6 w hw
    · unfold Tm.waitGens; rw [a1]; simpa using a7
    · intro g hg; rw [a3]; exact h.fired g hg
    · intro hx; rw [a5] at hx; cases hx
    · intro hx; rw [a5] at hx; cases hx
  · rename_i hs
    exact ⟨h, hs, rfl, fun _ hw _ => hw⟩

def OInv (r : Option Nat) (L : List Nat) (x : Option Tm) : Prop := (x = none → L = []) ∧ ∀ t, x = some t → t.Inv r L

theorem TOp.on_inv {r : Option Nat} {L : List Nat} {id : Nat} {x : Option Tm} (o : TOp) (h : OInv r L x) : OInv r L (o.on id x) := by
  have hm : ∀ f : Tm → Tm, (∀ t, t.Inv r L → (f t).Inv r L) → OInv r L (x.map f) := by
    intro f hf
    refine ⟨fun hn => h.1 (by simpa using hn), ?_⟩
    intro t ht
    rw [Option.map_eq_some_iff] at ht
    obtain ⟨u, hu, rfl⟩ := ht
    exact hf u (h.2 u hu)
  have hd : (x.getD (Tm.new id)).Inv r L := by
    cases x with
    | none => rw [h.1 rfl]; exact Tm.new_inv id r
    | some t => exact h.2 t rfl
  cases o with
  | createOrUpdate j interval cb st =>
    simp only [TOp.on]
    split
    · refine ⟨by simp, ?_⟩
      intro t ht
      have hu : ({ x.getD (Tm.new id) with interval, cb := some cb } : Tm).Inv r L := ⟨hd.seq, hd.armed, hd.queue, hd.nodup, hd.fired, hd.live, fun _ => rfl⟩
      cases st
      · simp at ht; subst ht; exact hu
      · simp at ht; subst ht; exact Tm.start_inv hu
    · exact h
  | start j =>
    simp only [TOp.on]; split
    · exact hm _ (fun _ => Tm.start_inv)
    · exact h
  | stop j =>
    simp only [TOp.on]; split
    · exact hm _ (fun _ ht => (Tm.stop_eq ht).1)
    · exact h
  | stopAll => exact hm _ (fun _ ht => (Tm.stop_eq ht).1)
  | stopAllBut j =>
    simp only [TOp.on]; split
    · exact h
    · exact hm _ (fun _ ht => (Tm.stop_eq ht).1)
  | cancelStatus j =>
    simp only [TOp.on]; split
    · exact hm _ (fun _ ht => ht.status _ (by simp))
    · exact h
  | changeInterval j i =>
    simp only [TOp.on]; split
    · exact hm _ (fun _ ht => ⟨ht.seq, ht.armed, ht.queue, ht.nodup, ht.fired, ht.live, ht.cb⟩)
    · exact h
  | changeCallBack j c =>
    simp only [TOp.on]; split
    · exact hm _ (fun _ ht => ⟨ht.seq, ht.armed, ht.queue, ht.nodup, ht.fired, ht.live, fun _ => rfl⟩)
    · exact h

theorem TOp.ons_inv {r : Option Nat} {L : List Nat} {id : Nat} {x : Option Tm} (os : List TOp) (h : OInv r L x) : OInv r L (os.foldl (TOp.on id) x) := by
  induction os generalizing x with
  | nil => exact h
  | cons o os ih => exact ih (TOp.on_inv o h)

theorem Tm.after_inv {L : List Nat} {t : Tm} {g : Nat} (ret : Bool) (h : t.Inv (some g) L) : (Tm.after ((g + 255) % 256) ret t).Inv none L := by
  unfold Tm.after
  split
  · rename_i hc
    obtain ⟨h1, h2, h3, _, _, h4⟩ := Tm.start_eq h (h.cb hc.2)
    exact ⟨h4.seq, h4.armed, h4.queue, h4.nodup, h4.fired, fun _ => Or.inl h3, h4.cb⟩
  · split
    · exact ⟨h.seq, h.armed, h.queue, h.nodup, h.fired, by simp, by simp⟩
    · rename_i hq
      refine ⟨h.seq, h.armed, h.queue, h.nodup, h.fired, ?_, h.cb⟩
      intro hs
      rcases h.live hs with h1 | h1 | h1
      · exact Or.inl h1
      · exact Or.inr (Or.inl h1)
      · exfalso; apply hq; rw [h.seq]; simp at h1; rw [h1]

theorem List.mem_of_mem_eraseIdx' {α : Type} {l : List α} {i : Nat} {a : α} (h : a ∈ l.eraseIdx i) : a ∈ l := List.mem_of_mem_eraseIdx h

theorem List.getElem?_perm_eraseIdx {α : Type} {l : List α} {i : Nat} {a : α} (h : l[i]? = some a) : l.Perm (a :: l.eraseIdx i) := by
  induction l generalizing i with
  | nil => simp at h
  | cons b l ih =>
    cases i with
    | zero => simp at h; subst h; simp
    | succ i =>
      simp at h
      simp only [List.eraseIdx_cons_succ]
      exact ((ih h).cons b).trans (List.Perm.swap a b _)

/-- Removing a completed wait from the queue, when its handler starts. -/
theorem Tm.erase_inv {L : List Nat} {t : Tm} {i : Nat} {w : TWait} (h : t.Inv none L) (hw : t.queue[i]? = some w) :
    ({ t with queue := t.queue.eraseIdx i } : Tm).Inv (some w.gen) (L ++ [w.gen]) ∧ (w.ok = false → ({ t with queue := t.queue.eraseIdx i } : Tm).Inv none L) := by
  have hp := List.getElem?_perm_eraseIdx hw
  have hmem : ∀ v, v ∈ t.queue ↔ v = w ∨ v ∈ t.queue.eraseIdx i := by
    intro v; rw [hp.mem_iff]; simp
  have hnd : (L ++ (w.gen :: (t.queue.eraseIdx i).map TWait.gen) ++ (t.armed.map (fun p => p.2)).toList).Nodup := by
    have h1 := h.nodup
    unfold Tm.waitGens at h1
    have h2 : (t.queue.map TWait.gen).Perm (w.gen :: (t.queue.eraseIdx i).map TWait.gen) := by simpa using hp.map TWait.gen
    have h3 : (L ++ (t.queue.map TWait.gen ++ (t.armed.map (fun p => p.2)).toList)).Perm (L ++ (w.gen :: (t.queue.eraseIdx i).map TWait.gen) ++ (t.armed.map (fun p => p.2)).toList) := by
      rw [← List.append_assoc]
      exact (List.Perm.append_left L h2).append_right _
    exact h3.nodup_iff.1 h1
  have hwq := h.queue w ((hmem w).2 (Or.inl rfl))
  constructor
  · refine ⟨h.seq, h.armed, fun v hv => h.queue v ((hmem v).2 (Or.inr hv)), ?_, ?_, ?_, h.cb⟩
    · unfold Tm.waitGens; simpa using hnd
    · intro g hg
      rw [List.mem_append, List.mem_singleton] at hg
      rcases hg with hg | rfl
      · exact h.fired g hg
      · exact hwq.1
    · intro hs
      rcases h.live hs with h1 | h1 | h1
      · exact Or.inl h1
      · rcases (hmem _).1 h1 with h2 | h2
        · right; right; rw [← h2]
        · exact Or.inr (Or.inl h2)
      · cases h1
  · intro hok
    refine ⟨h.seq, h.armed, fun v hv => h.queue v ((hmem v).2 (Or.inr hv)), ?_, h.fired, ?_, h.cb⟩
    · have : (L ++ Tm.waitGens { t with queue := t.queue.eraseIdx i }).Sublist (L ++ (w.gen :: (t.queue.eraseIdx i).map TWait.gen) ++ (t.armed.map (fun p => p.2)).toList) := by
        unfold Tm.waitGens
        rw [List.append_assoc]
        apply List.Sublist.append_left
        rw [List.cons_append]
        exact List.sublist_cons_self _ _
      exact this.nodup hnd
    · intro hs
      rcases h.live hs with h1 | h1 | h1
      · exact Or.inl h1
      · rcases (hmem _).1 h1 with h2 | h2
        · rw [← h2] at hok; cases hok
        · exact Or.inr (Or.inl h2)
      · cases h1

theorem Tm.after_false_inv {L : List Nat} {t : Tm} {q : Nat} (h : t.Inv none L) : (Tm.after q false t).Inv none L := by
  unfold Tm.after
  simp only [Bool.false_eq_true, false_and, if_false]
  split
  · exact ⟨h.seq, h.armed, h.queue, h.nodup, h.fired, by simp, by simp⟩
  · exact h

theorem firedGens_append (id : Nat) (a b : List TEv) : firedGens id (a ++ b) = firedGens id a ++ firedGens id b := by
  induction a with
  | nil => rfl
  | cons e a ih =>
    cases e with
    | fired j g c => simp only [List.cons_append, firedGens]; split <;> simp [ih]
    | bad => simp [firedGens, ih]

theorem Tms.step_inv {l l' : Tms} {a : TAct} {es : List TEv} {id : Nat} {L : List Nat} (h : OInv none L (l.find id)) (hs : l.step a = some (l', es)) :
    OInv none (L ++ firedGens id es) (l'.find id) := by
  rw [Tms.find_step hs]
  cases a with
  | op o =>
    simp only [Tms.step] at hs; cases hs
    simp only [firedGens, List.append_nil]
    exact TOp.on_inv (id := id) o h
  | expire j =>
    have he : firedGens id es = [] := by
      simp only [Tms.step] at hs
      split at hs
      · cases hs
      · split at hs
        · cases hs
        · cases hs; rfl
    rw [he, List.append_nil]
    simp only [TAct.on]
    split
    · refine ⟨fun hn => h.1 (by simpa using hn), ?_⟩
      intro t ht
      rw [Option.map_eq_some_iff] at ht
      obtain ⟨u, hu, rfl⟩ := ht
      have hi := h.2 u hu
      cases ha : u.armed with
      | none => simpa [ha] using hi
      | some p =>
        obtain ⟨q, g⟩ := p
        obtain ⟨rfl, rfl⟩ := hi.armed q g ha
        refine ⟨hi.seq, by simp, ?_, ?_, hi.fired, ?_, hi.cb⟩
        · intro w hw
          simp at hw
          rcases hw with hw | rfl
          · exact hi.queue w hw
          · exact ⟨Nat.le_refl _, hi.seq⟩
        · have := hi.nodup
          unfold Tm.waitGens at this ⊢
          simpa [ha] using this
        · intro hst
          right; left; simp
    · exact h
  | run j i script ret =>
    simp only [Tms.step, TAct.on] at hs ⊢
    cases hj : l.find j with
    | none => simp [hj] at hs
    | some t =>
      simp only [hj] at hs ⊢
      cases hw : t.queue[i]? with
      | none => simp [hw] at hs
      | some w =>
        simp only [hw] at hs ⊢
        by_cases hid : j = id
        · subst hid
          have hi := h.2 t hj
          have hwm := hi.queue w (List.mem_of_getElem? hw)
          have he := Tm.erase_inv hi hw
          simp only [hj, if_true, Option.map_some]
          by_cases hc : t.status = .started ∧ w.ok = true
          · simp only [hc, and_self, if_true] at hs ⊢
            cases hcb : t.cb with
            | none => have := hi.cb hc.1; rw [hcb] at this; cases this
            | some cb =>
              simp only [hcb] at hs ⊢
              cases hs
              have h1 : OInv (some w.gen) (L ++ [w.gen]) (some { t with queue := t.queue.eraseIdx i }) := ⟨by simp, by intro u hu; cases hu; exact he.1⟩
              have h2 := TOp.ons_inv (id := j) script h1
              simp only [firedGens, if_true]
              have hst : t.status = .started := hc.1
              rw [hcb, hst] at h2
              refine ⟨fun hn => h2.1 (by simpa using hn), ?_⟩
              intro u hu
              rw [Option.map_eq_some_iff] at hu
              obtain ⟨v, hv, rfl⟩ := hu
              rw [hwm.2]
              exact Tm.after_inv ret (h2.2 v hv)
          · rw [if_neg hc] at hs ⊢
            cases hs
            simp only [firedGens, List.append_nil]
            refine ⟨by simp, ?_⟩
            intro u hu
            simp at hu
            subst hu
            by_cases hok : w.ok = false
            · exact Tm.after_false_inv (he.2 hok)
            · have hns : t.status ≠ .started := by
                intro hst; exact hc ⟨hst, by simpa using hok⟩
              -- not started: `live` is void
              have h3 : ({ t with queue := t.queue.eraseIdx i } : Tm).Inv none L := by
                have h4 := he.1
                refine ⟨h4.seq, h4.armed, h4.queue, ?_, hi.fired, fun hst => absurd hst hns, h4.cb⟩
                have h5 := h4.nodup
                rw [List.append_assoc] at h5
                have : (L ++ Tm.waitGens { t with queue := t.queue.eraseIdx i }).Sublist (L ++ ([w.gen] ++ Tm.waitGens { t with queue := t.queue.eraseIdx i })) := by
                  apply List.Sublist.append_left
                  exact List.sublist_cons_self _ _
                exact this.nodup h5
              exact Tm.after_false_inv h3
        · simp only [if_neg hid]
          have hf : firedGens id es = [] := by
            split at hs
            · split at hs
              · cases hs; rfl
              · cases hs; simp [firedGens, hid]
            · cases hs; rfl
          rw [hf, List.append_nil]
          split
          · split
            · exact h
            · exact TOp.ons_inv script h
          · exact h

theorem Tms.run_inv {l : Tms} {as : List TAct} {es : List TEv} (hr : Tms.Run [] as l es) (id : Nat) : OInv none (firedGens id es) (l.find id) := by
  generalize h0 : ([] : Tms) = l0 at hr
  induction hr with
  | nil => subst h0; exact ⟨fun _ => rfl, by intro t ht; cases ht⟩
  | snoc s1 s2 as a es es' hr hs ih =>
    rw [firedGens_append]
    exact Tms.step_inv ih hs

theorem Tms.run_nodup {l : Tms} {as : List TAct} {es : List TEv} (hr : Tms.Run [] as l es) : (l.map Tm.id).Nodup := by
  generalize h0 : ([] : Tms) = l0 at hr
  induction hr with
  | nil => subst h0; simp
  | snoc s1 s2 as a es es' hr hs ih => exact Tms.step_nodup ih hs

/-! ### not started, started -/

theorem TOp.on_not_started {id : Nat} {x : Option Tm} {o : TOp} (ho : ¬ o.Starts id) (h : ∀ t, x = some t → t.status ≠ .started) :
    ∀ t, o.on id x = some t → t.status ≠ .started := by
  have hstop : ∀ t : Tm, t.stop.status ≠ .started := by
    intro t
    unfold Tm.stop
    split
    · unfold Tm.abort; split <;> simp
    · assumption
  have hm : ∀ f : Tm → Tm, (∀ t : Tm, t.status ≠ .started → (f t).status ≠ .started) → ∀ t, x.map f = some t → t.status ≠ .started := by
    intro f hf t ht
    rw [Option.map_eq_some_iff] at ht
    obtain ⟨u, hu, rfl⟩ := ht
    exact hf u (h u hu)
  intro t
  cases o with
  | createOrUpdate j interval cb st =>
    simp only [TOp.on]
    split
    · rename_i hj
      cases st
      · intro ht
        simp at ht
        subst ht
        cases x with
        | none => simp [Tm.new]
        | some u => exact h u rfl
      · exact absurd hj (by simpa [TOp.Starts] using ho)
    · exact h t
  | start j => simp only [TOp.on]; rw [if_neg (by simpa [TOp.Starts] using ho)]; exact h t
  | stop j =>
    simp only [TOp.on]; split
    · exact hm _ (fun u _ => hstop u) t
    · exact h t
  | stopAll => exact hm _ (fun u _ => hstop u) t
  | stopAllBut j =>
    simp only [TOp.on]; split
    · exact h t
    · exact hm _ (fun u _ => hstop u) t
  | cancelStatus j =>
    simp only [TOp.on]; split
    · exact hm _ (fun u _ => by simp) t
    · exact h t
  | changeInterval j i =>
    simp only [TOp.on]; split
    · exact hm (fun t => { t with interval := i }) (fun u hu => hu) t
    · exact h t
  | changeCallBack j c =>
    simp only [TOp.on]; split
    · exact hm (fun t => { t with cb := some c }) (fun u hu => hu) t
    · exact h t

theorem TOp.ons_not_started {id : Nat} {x : Option Tm} {os : List TOp} (ho : ∀ o ∈ os, ¬ o.Starts id) (h : ∀ t, x = some t → t.status ≠ .started) :
    ∀ t, os.foldl (TOp.on id) x = some t → t.status ≠ .started := by
  induction os generalizing x with
  | nil => exact h
  | cons o os ih => exact ih (fun o' h' => ho o' (by simp [h'])) (TOp.on_not_started (ho o (by simp)) h)

theorem Tms.step_not_started {l l' : Tms} {a : TAct} {es : List TEv} {id : Nat} (ha : ¬ a.Starts id) (h : ∀ t, l.find id = some t → t.status ≠ .started)
    (hs : l.step a = some (l', es)) : firedGens id es = [] ∧ ∀ t, l'.find id = some t → t.status ≠ .started := by
  rw [Tms.find_step hs]
  cases a with
  | op o =>
    simp only [Tms.step] at hs; cases hs
    exact ⟨rfl, TOp.on_not_started ha h⟩
  | expire j =>
    have he : firedGens id es = [] := by
      simp only [Tms.step] at hs
      split at hs
      · cases hs
      · split at hs
        · cases hs
        · cases hs; rfl
    refine ⟨he, ?_⟩
    simp only [TAct.on]
    split
    · intro t ht
      rw [Option.map_eq_some_iff] at ht
      obtain ⟨u, hu, rfl⟩ := ht
      have := h u hu
      cases ha : u.armed <;> simpa [ha] using this
    · exact h
  | run j i script ret =>
    have ha : ∀ o ∈ script, ¬ o.Starts id := fun o ho h' => ha ⟨o, ho, h'⟩
    simp only [Tms.step, TAct.on] at hs ⊢
    cases hj : l.find j with
    | none => simp [hj] at hs
    | some t =>
      simp only [hj] at hs ⊢
      cases hw : t.queue[i]? with
      | none => simp [hw] at hs
      | some w =>
        simp only [hw] at hs ⊢
        by_cases hid : j = id
        · subst hid
          have hns := h t hj
          rw [if_neg (by simp [hns])] at hs ⊢
          cases hs
          refine ⟨rfl, ?_⟩
          intro u hu
          simp [hj] at hu
          subst hu
          unfold Tm.after
          simp only [Bool.false_eq_true, false_and, if_false]
          split
          · simp
          · exact hns
        · simp only [if_neg hid]
          have hf : firedGens id es = [] := by
            split at hs
            · split at hs
              · cases hs; rfl
              · cases hs; simp [firedGens, hid]
            · cases hs; rfl
          refine ⟨hf, ?_⟩
          split
          · split
            · exact h
            · exact TOp.ons_not_started ha h
          · exact h

theorem Tms.run_not_started {l l' : Tms} {as : List TAct} {es : List TEv} {id : Nat} (ha : ∀ a ∈ as, ¬ a.Starts id)
    (h : ∀ t, l.find id = some t → t.status ≠ .started) (hr : Tms.Run l as l' es) : firedGens id es = [] ∧ ∀ t, l'.find id = some t → t.status ≠ .started := by
  induction hr with
  | nil => exact ⟨rfl, h⟩
  | snoc s1 s2 as a es es' hr hs ih =>
    have ih := ih (fun x hx => ha x (by simp [hx]))
    have h1 := Tms.step_not_started (ha a (by simp)) ih.2 hs
    rw [firedGens_append, ih.1, h1.1]
    exact ⟨rfl, h1.2⟩

theorem startsIn_one (id : Nat) (o : TOp) : startsIn id [o] = if o.Starts id then 1 else 0 := by
  simp only [startsIn, List.filter_cons, List.filter_nil]
  by_cases h : o.Starts id <;> simp [h]

/-- Operations keep the call back and count schedules. -/
theorem TOp.on_counts {r : Option Nat} {L : List Nat} {id : Nat} {t : Tm} (o : TOp) (h : t.Inv r L) (hcb : t.cb.isSome) :
    ∃ t', o.on id (some t) = some t' ∧ t'.Inv r L ∧ t'.cb.isSome ∧ t'.gen = t.gen + startsIn id [o] ∧ (t'.gen = t.gen → ∀ w ∈ t'.queue, w.ok = true → w ∈ t.queue) ∧
      (∀ w ∈ t'.queue, w.ok = true → w ∈ t.queue) ∧
      (o.Starts id ∨ (t.status = .started ∧ ¬ o.Stops id) → t'.status = .started) := by
  have hstop : t.stop.cb = t.cb := by unfold Tm.stop; split; (unfold Tm.abort; split <;> rfl); rfl
  have hse := Tm.stop_eq h
  have hst := Tm.start_eq h hcb
  cases o with
  | createOrUpdate j interval cb st =>
    simp only [TOp.on]
    by_cases hj : j = id
    · have hu : ({ t with interval, cb := some cb } : Tm).Inv r L := ⟨h.seq, h.armed, h.queue, h.nodup, h.fired, h.live, fun _ => rfl⟩
      have hst := Tm.start_eq hu rfl
      cases st
      · exact ⟨_, by simp only [hj, if_true, Option.map_some]; rfl, hu, rfl, by rw [startsIn_one]; simp [TOp.Starts], fun _ _ hw _ => hw, fun _ hw _ => hw, by simp [TOp.Starts]; exact fun h _ => h⟩
      · exact ⟨_, by simp only [hj, if_true, Option.map_some]; rfl, hst.2.2.2.2.2, by rw [hst.2.2.2.1]; rfl, by rw [hst.2.1]; rw [startsIn_one]; simp [TOp.Starts, hj], fun _ => hst.2.2.2.2.1, hst.2.2.2.2.1, fun _ => hst.1⟩
    · cases st <;> exact ⟨t, by simp [hj], h, hcb, by rw [startsIn_one]; simp [TOp.Starts, hj], fun _ _ hw _ => hw, fun _ hw _ => hw, by simp [TOp.Starts, hj]; exact fun h _ => h⟩
  | start j =>
    simp only [TOp.on]
    by_cases hj : j = id
    · exact ⟨_, by simp [hj], hst.2.2.2.2.2, by rw [hst.2.2.2.1]; exact hcb, by rw [hst.2.1]; rw [startsIn_one]; simp [TOp.Starts, hj], fun _ => hst.2.2.2.2.1, hst.2.2.2.2.1, fun _ => hst.1⟩
    · exact ⟨t, by simp [hj], h, hcb, by rw [startsIn_one]; simp [TOp.Starts, hj], fun _ _ hw _ => hw, fun _ hw _ => hw, by simp [TOp.Starts, hj]; exact fun h _ => h⟩
  | stop j =>
    simp only [TOp.on]
    by_cases hj : j = id
    · exact ⟨_, by simp [hj], hse.1, by rw [hstop]; exact hcb, by rw [hse.2.2.1]; rw [startsIn_one]; simp [TOp.Starts], fun _ => hse.2.2.2, hse.2.2.2, by simp [TOp.Starts, TOp.Stops, hj]⟩
    · exact ⟨t, by simp [hj], h, hcb, by rw [startsIn_one]; simp [TOp.Starts], fun _ _ hw _ => hw, fun _ hw _ => hw, by simp [TOp.Starts]; exact fun h _ => h⟩
  | stopAll =>
    exact ⟨_, rfl, hse.1, by rw [hstop]; exact hcb, by rw [hse.2.2.1]; rw [startsIn_one]; simp [TOp.Starts], fun _ => hse.2.2.2, hse.2.2.2, by simp [TOp.Starts, TOp.Stops]⟩
  | stopAllBut j =>
    simp only [TOp.on]
    by_cases hj : j = id
    · exact ⟨t, by simp [hj], h, hcb, by rw [startsIn_one]; simp [TOp.Starts], fun _ _ hw _ => hw, fun _ hw _ => hw, by simp [TOp.Starts]; exact fun h _ => h⟩
    · exact ⟨_, by simp only [hj, if_true, Option.map_some]; rfl, hse.1, by rw [hstop]; exact hcb, by rw [hse.2.2.1]; rw [startsIn_one]; simp [TOp.Starts], fun _ => hse.2.2.2, hse.2.2.2, by simp [TOp.Starts, TOp.Stops, hj]⟩
  | cancelStatus j =>
    simp only [TOp.on]
    by_cases hj : j = id
    · exact ⟨{ t with status := .canceled }, by simp [hj], h.status _ (by simp), hcb, by rw [startsIn_one]; simp [TOp.Starts], fun _ _ hw _ => hw, fun _ hw _ => hw, by simp [TOp.Starts, TOp.Stops, hj]⟩
    · exact ⟨t, by simp [hj], h, hcb, by rw [startsIn_one]; simp [TOp.Starts], fun _ _ hw _ => hw, fun _ hw _ => hw, by simp [TOp.Starts]; exact fun h _ => h⟩
  | changeInterval j i =>
    simp only [TOp.on]
    by_cases hj : j = id
    · exact ⟨{ t with interval := i }, by simp [hj], ⟨h.seq, h.armed, h.queue, h.nodup, h.fired, h.live, h.cb⟩, hcb, by rw [startsIn_one]; simp [TOp.Starts], fun _ _ hw _ => hw, fun _ hw _ => hw, by simp [TOp.Starts]; exact fun h _ => h⟩
    · exact ⟨t, by simp [hj], h, hcb, by rw [startsIn_one]; simp [TOp.Starts], fun _ _ hw _ => hw, fun _ hw _ => hw, by simp [TOp.Starts]; exact fun h _ => h⟩
  | changeCallBack j c =>
    simp only [TOp.on]
    by_cases hj : j = id
    · exact ⟨{ t with cb := some c }, by simp [hj], ⟨h.seq, h.armed, h.queue, h.nodup, h.fired, h.live, fun _ => rfl⟩, rfl, by rw [startsIn_one]; simp [TOp.Starts], fun _ _ hw _ => hw, fun _ hw _ => hw, by simp [TOp.Starts]; exact fun h _ => h⟩
    · exact ⟨t, by simp [hj], h, hcb, by rw [startsIn_one]; simp [TOp.Starts], fun _ _ hw _ => hw, fun _ hw _ => hw, by simp [TOp.Starts]; exact fun h _ => h⟩

theorem startsIn_cons (id : Nat) (o : TOp) (os : List TOp) : startsIn id (o :: os) = startsIn id [o] + startsIn id os := by
  simp only [startsIn, List.filter_cons, List.filter_nil]
  split <;> simp
  omega

theorem TOp.ons_counts {r : Option Nat} {L : List Nat} {id : Nat} {t : Tm} (os : List TOp) (h : t.Inv r L) (hcb : t.cb.isSome) :
    ∃ t', os.foldl (TOp.on id) (some t) = some t' ∧ t'.Inv r L ∧ t'.cb.isSome ∧ t'.gen = t.gen + startsIn id os ∧
      (∀ w ∈ t'.queue, w.ok = true → w ∈ t.queue) ∧
      (t.status = .started → (∀ o ∈ os, ¬ o.Stops id) → t'.status = .started) := by
  induction os generalizing t with
  | nil => exact ⟨t, rfl, h, hcb, rfl, fun _ hw _ => hw, fun h _ => h⟩
  | cons o os ih =>
    obtain ⟨t1, e1, i1, c1, g1, _, q1, s1⟩ := TOp.on_counts (id := id) o h hcb
    obtain ⟨t2, e2, i2, c2, g2, q2, s2⟩ := ih i1 c1
    refine ⟨t2, by rw [List.foldl_cons, e1]; exact e2, i2, c2, by rw [startsIn_cons]; omega, fun w hw hok => q1 w (q2 w hw hok) hok, ?_⟩
    intro hst hno
    exact s2 (s1 (Or.inr ⟨hst, hno o (by simp)⟩)) (fun o' h' => hno o' (by simp [h']))

/-- A script whose last word on timer `id` is a start leaves it started. -/
theorem TOp.ons_restart {r : Option Nat} {L : List Nat} {id : Nat} {t : Tm} (pre post : List TOp) (o : TOp) (h : t.Inv r L) (hcb : t.cb.isSome)
    (ho : o.Starts id) (hp : ∀ o ∈ post, ¬ o.Stops id) :
    ∃ t', (pre ++ o :: post).foldl (TOp.on id) (some t) = some t' ∧ t'.Inv r L ∧ t'.gen = t.gen + startsIn id (pre ++ o :: post) ∧ t'.status = .started := by
  obtain ⟨t1, e1, i1, c1, g1, _, _⟩ := TOp.ons_counts (id := id) pre h hcb
  obtain ⟨t2, e2, i2, c2, g2, _, _, s2⟩ := TOp.on_counts (id := id) o i1 c1
  obtain ⟨t3, e3, i3, c3, g3, _, s3⟩ := TOp.ons_counts (id := id) post i2 c2
  refine ⟨t3, by rw [List.foldl_append, e1, List.foldl_cons, e2]; exact e3, i3, ?_, s3 (s2 (Or.inl ho)) hp⟩
  have : startsIn id (pre ++ o :: post) = startsIn id pre + (startsIn id [o] + startsIn id post) := by
    rw [← startsIn_cons]
    simp [startsIn]
  omega

theorem Tms.run_trans {s s1 s2 : Tms} {as bs : List TAct} {es fs : List TEv} (h1 : Tms.Run s as s1 es) (h2 : Tms.Run s1 bs s2 fs) :
    Tms.Run s (as ++ bs) s2 (es ++ fs) := by
  induction h2 with
  | nil => simpa using h1
  | snoc s2 s3 bs a fs fs' _ hs ih =>
    rw [← List.append_assoc, ← List.append_assoc]
    exact Tms.Run.snoc _ _ _ _ _ _ _ ih hs

theorem Tms.run_one {s s1 : Tms} {a : TAct} {es : List TEv} (h : s.step a = some (s1, es)) : Tms.Run s [a] s1 es := by
  have := Tms.Run.snoc _ _ _ _ _ _ _ (Tms.Run.nil s) h
  simpa using this

theorem Tms.exec_run {s s' : Tms} {as : List TAct} {es : List TEv} (h : Tms.exec s as = some (s', es)) : Tms.Run s as s' es := by
  induction as generalizing s es with
  | nil => simp [Tms.exec] at h; obtain ⟨rfl, rfl⟩ := h; exact Tms.Run.nil _
  | cons a as ih =>
    simp only [Tms.exec, Option.bind_eq_bind] at h
    rw [Option.bind_eq_some_iff] at h
    obtain ⟨⟨s1, e1⟩, h1, h2⟩ := h
    rw [Option.bind_eq_some_iff] at h2
    obtain ⟨⟨s2, e2⟩, h2, h3⟩ := h2
    simp at h3
    obtain ⟨rfl, rfl⟩ := h3
    exact Tms.run_trans (Tms.run_one h1) (ih h2)

theorem mem_firedGens (id g : Nat) (es : List TEv) : g ∈ firedGens id es ↔ ∃ cb, TEv.fired id g cb ∈ es := by
  induction es with
  | nil => simp [firedGens]
  | cons e es ih =>
    cases e with
    | fired j g' cb =>
      simp only [firedGens]
      split
      · rename_i h; subst h
        simp only [List.mem_cons, ih]
        constructor
        · rintro (rfl | ⟨c, h⟩)
          · exact ⟨cb, Or.inl rfl⟩
          · exact ⟨c, Or.inr h⟩
        · rintro ⟨c, h | h⟩
          · cases h; exact Or.inl rfl
          · exact Or.inr ⟨c, h⟩
      · rename_i h
        rw [ih]
        simp only [List.mem_cons]
        constructor
        · rintro ⟨c, h⟩; exact ⟨c, Or.inr h⟩
        · rintro ⟨c, h' | h'⟩
          · cases h'; exact absurd rfl h
          · exact ⟨c, h'⟩
    | bad => simp [firedGens, ih]

/-- What a firing looks like. -/
theorem Tms.step_fired {l l' : Tms} {id i g cb : Nat} {script : List TOp} {ret : Bool} (hs : l.step (.run id i script ret) = some (l', [.fired id g cb])) :
    ∃ t w, l.find id = some t ∧ t.queue[i]? = some w ∧ w.gen = g ∧ w.ok = true ∧ t.status = .started ∧ t.cb = some cb ∧
      l'.find id = (script.foldl (TOp.on id) (some { t with queue := t.queue.eraseIdx i })).map (Tm.after w.seq ret) := by
  have hf := Tms.find_step hs id
  simp only [Tms.step, TAct.on] at hs hf
  cases hj : l.find id with
  | none => simp [hj] at hs
  | some t =>
    simp only [hj] at hs hf
    cases hw : t.queue[i]? with
    | none => simp [hw] at hs
    | some w =>
      simp only [hw] at hs hf
      split at hs
      · rename_i hc
        split at hs
        · simp at hs
        · rename_i c hcb
          simp only [Option.some.injEq, Prod.mk.injEq, List.cons.injEq, TEv.fired.injEq, true_and, and_true] at hs
          obtain ⟨_, rfl, rfl⟩ := hs
          rw [if_pos hc] at hf
          simp only [hcb, if_true, Option.map_some] at hf
          exact ⟨t, w, rfl, hw, rfl, hc.2, hc.1, hcb, by rw [hcb]; exact hf⟩
      · simp at hs

/-- The queued expiries are for the current schedule. -/
def Tm.Current (t : Tm) : Prop := ∀ w ∈ t.queue, w.ok = true → w.gen = t.gen

theorem Tm.no_ok_after_erase {L : List Nat} {t : Tm} {i : Nat} {w : TWait} (h : t.Inv none L) (hc : t.Current) (hw : t.queue[i]? = some w) (hok : w.ok = true) :
    ∀ v ∈ t.queue.eraseIdx i, v.ok = false := by
  intro v hv
  cases hvo : v.ok with
  | false => rfl
  | true =>
    exfalso
    have h1 := hc v (List.mem_of_mem_eraseIdx hv) hvo
    have h2 := hc w (List.mem_of_getElem? hw) hok
    have hp := List.getElem?_perm_eraseIdx hw
    have hnd := h.nodup
    rw [Tm.waitGens] at hnd
    have h3 := (List.nodup_append.1 (List.nodup_append.1 hnd).2.1).1
    have h4 := (hp.map TWait.gen).nodup_iff.1 h3
    rw [List.map_cons, List.nodup_cons] at h4
    exact h4.1 (List.mem_map.2 ⟨v, hv, by omega⟩)

/-- The state of one timer with respect to its queued expiries. -/
def Tm.OCur (x : Option Tm) : Prop := ∀ t, x = some t → t.Current
def Tm.ONone (x : Option Tm) : Prop := ∀ t, x = some t → ∀ w ∈ t.queue, w.ok = false

theorem Tm.start_queue (t : Tm) : ∀ w ∈ t.start.1.queue, w.ok = true → w ∈ t.queue := by
  unfold Tm.start
  split
  · exact fun w hw _ => hw
  · unfold Tm.abort
    split
    · exact fun w hw _ => hw
    · intro w hw hok
      simp at hw
      rcases hw with hw | rfl
      · exact hw
      · cases hok

theorem Tm.stop_queue (t : Tm) : t.stop.gen = t.gen ∧ ∀ w ∈ t.stop.queue, w.ok = true → w ∈ t.queue := by
  unfold Tm.stop
  split
  · unfold Tm.abort
    split
    · exact ⟨rfl, fun w hw _ => hw⟩
    · refine ⟨rfl, ?_⟩
      intro w hw hok
      simp at hw
      rcases hw with hw | rfl
      · exact hw
      · cases hok
  · exact ⟨rfl, fun w hw _ => hw⟩

theorem TOp.on_queue (id : Nat) (x : Option Tm) (o : TOp) : ∀ t', o.on id x = some t' → (∀ w ∈ t'.queue, w.ok = true → ∃ t, x = some t ∧ w ∈ t.queue) ∧
    (¬ o.Starts id → ∀ t, x = some t → t'.gen = t.gen) := by
  have hm : ∀ f : Tm → Tm, (∀ t : Tm, (f t).gen = t.gen ∧ ∀ w ∈ (f t).queue, w.ok = true → w ∈ t.queue) → ∀ t', x.map f = some t' →
      (∀ w ∈ t'.queue, w.ok = true → ∃ t, x = some t ∧ w ∈ t.queue) ∧ ∀ t, x = some t → t'.gen = t.gen := by
    intro f hf t' ht'
    rw [Option.map_eq_some_iff] at ht'
    obtain ⟨u, hu, rfl⟩ := ht'
    refine ⟨fun w hw hok => ⟨u, hu, (hf u).2 w hw hok⟩, ?_⟩
    intro t ht
    rw [hu] at ht; cases ht
    exact (hf u).1
  have hid : ∀ t', x = some t' → (∀ w ∈ t'.queue, w.ok = true → ∃ t, x = some t ∧ w ∈ t.queue) ∧ ∀ t, x = some t → t'.gen = t.gen := by
    intro t' ht'
    refine ⟨fun w hw _ => ⟨t', ht', hw⟩, ?_⟩
    intro t ht; rw [ht'] at ht; cases ht; rfl
  have weak : ∀ {t' : Tm} {A : Prop}, ((∀ w ∈ t'.queue, w.ok = true → ∃ t, x = some t ∧ w ∈ t.queue) ∧ ∀ t, x = some t → t'.gen = t.gen) →
      ((∀ w ∈ t'.queue, w.ok = true → ∃ t, x = some t ∧ w ∈ t.queue) ∧ (A → ∀ t, x = some t → t'.gen = t.gen)) := fun h => ⟨h.1, fun _ => h.2⟩
  intro t'
  cases o with
  | createOrUpdate j interval cb st =>
    simp only [TOp.on]
    split
    · rename_i hj
      cases st
      · intro ht
        simp at ht
        subst ht
        cases x with
        | none => simp [Tm.new]
        | some u => exact ⟨fun w hw _ => ⟨u, rfl, hw⟩, fun _ t ht => by cases ht; rfl⟩
      · intro ht
        simp at ht
        subst ht
        refine ⟨?_, fun h => absurd hj h⟩
        intro w hw hok
        have := Tm.start_queue _ w hw hok
        cases x with
        | none => simp [Tm.new] at this
        | some u => exact ⟨u, rfl, this⟩
    · exact fun h => weak (hid t' h)
  | start j =>
    simp only [TOp.on]
    split
    · rename_i hj
      intro ht
      rw [Option.map_eq_some_iff] at ht
      obtain ⟨u, hu, rfl⟩ := ht
      exact ⟨fun w hw hok => ⟨u, hu, Tm.start_queue _ w hw hok⟩, fun h => absurd hj h⟩
    · exact fun h => weak (hid t' h)
  | stop j =>
    simp only [TOp.on]; split
    · exact fun h => weak (hm _ Tm.stop_queue t' h)
    · exact fun h => weak (hid t' h)
  | stopAll => exact fun h => weak (hm _ Tm.stop_queue t' h)
  | stopAllBut j =>
    simp only [TOp.on]; split
    · exact fun h => weak (hid t' h)
    · exact fun h => weak (hm _ Tm.stop_queue t' h)
  | cancelStatus j =>
    simp only [TOp.on]; split
    · exact fun h => weak (hm (fun t => { t with status := .canceled }) (fun t => ⟨rfl, fun w hw _ => hw⟩) t' h)
    · exact fun h => weak (hid t' h)
  | changeInterval j i =>
    simp only [TOp.on]; split
    · exact fun h => weak (hm (fun t => { t with interval := i }) (fun t => ⟨rfl, fun w hw _ => hw⟩) t' h)
    · exact fun h => weak (hid t' h)
  | changeCallBack j c =>
    simp only [TOp.on]; split
    · exact fun h => weak (hm (fun t => { t with cb := some c }) (fun t => ⟨rfl, fun w hw _ => hw⟩) t' h)
    · exact fun h => weak (hid t' h)

theorem TOp.ons_none {id : Nat} {x : Option Tm} (os : List TOp) (h : Tm.ONone x) : Tm.ONone (os.foldl (TOp.on id) x) := by
  induction os generalizing x with
  | nil => exact h
  | cons o os ih =>
    refine ih ?_
    intro t' ht' w hw
    cases hok : w.ok with
    | false => rfl
    | true =>
      obtain ⟨t, ht, hw'⟩ := (TOp.on_queue id x o t' ht').1 w hw hok
      rw [h t ht w hw'] at hok
      cases hok

theorem TOp.ons_cur {id : Nat} {x : Option Tm} (os : List TOp) (hno : ∀ o ∈ os, ¬ o.Starts id) (h : Tm.OCur x) : Tm.OCur (os.foldl (TOp.on id) x) := by
  induction os generalizing x with
  | nil => exact h
  | cons o os ih =>
    refine ih (fun o' h' => hno o' (by simp [h'])) ?_
    intro t' ht' w hw hok
    have hq := TOp.on_queue id x o t' ht'
    obtain ⟨t, ht, hw'⟩ := hq.1 w hw hok
    rw [hq.2 (hno o (by simp)) t ht]
    exact h t ht w hw' hok

theorem Tm.after_queue (q : Nat) (ret : Bool) (t : Tm) : ∀ w ∈ (Tm.after q ret t).queue, w.ok = true → w ∈ t.queue := by
  unfold Tm.after
  split
  · exact Tm.start_queue t
  · split
    · exact fun w hw _ => hw
    · exact fun w hw _ => hw

theorem Tm.ONone.cur {x : Option Tm} (h : Tm.ONone x) : Tm.OCur x := by
  intro t ht w hw hok
  rw [h t ht w hw] at hok; cases hok

theorem Tms.step_current {l l' : Tms} {a : TAct} {es : List TEv} {id : Nat} {L : List Nat} (hi : OInv none L (l.find id)) (h : Tm.OCur (l.find id))
    (hclean : a.Starts id → (∀ i script ret, a ≠ .run id i script ret) → ¬ l.expiryQueued id) (hs : l.step a = some (l', es)) : Tm.OCur (l'.find id) := by
  rw [Tms.find_step hs]
  have hnone : ¬ l.expiryQueued id → Tm.ONone (l.find id) := by
    intro hn t ht w hw
    cases hok : w.ok with
    | false => rfl
    | true => exact absurd ⟨t, ht, w, hw, hok⟩ hn
  cases a with
  | op o =>
    simp only [TAct.on]
    by_cases ho : o.Starts id
    · exact (TOp.ons_none [o] (hnone (hclean ho (by intros; simp)))).cur
    · exact TOp.ons_cur [o] (by simpa using ho) h
  | expire j =>
    simp only [TAct.on]
    split
    · intro t ht
      rw [Option.map_eq_some_iff] at ht
      obtain ⟨u, hu, rfl⟩ := ht
      have hu' := h u hu
      cases ha : u.armed with
      | none => exact hu'
      | some p =>
        obtain ⟨q, g⟩ := p
        have := (hi.2 u hu).armed q g ha
        intro w hw hok
        simp at hw
        rcases hw with hw | rfl
        · exact hu' w hw hok
        · exact this.2
    · exact h
  | run j i script ret =>
    simp only [TAct.on]
    cases hj : l.find j with
    | none => exact h
    | some t =>
      simp only
      cases hw : t.queue[i]? with
      | none => exact h
      | some w =>
        simp only
        by_cases hji : j = id
        · subst hji
          simp only [if_true, hj, Option.map_some]
          have hti := hi.2 t hj
          have htc := h t hj
          split
          · rename_i hc
            have hno : Tm.ONone (some { t with queue := t.queue.eraseIdx i }) := by
              intro u hu; cases hu
              exact Tm.no_ok_after_erase hti htc hw hc.2
            split
            · exact hno.cur
            · have := TOp.ons_none (id := j) script hno
              intro u hu v hv hok
              rw [Option.map_eq_some_iff] at hu
              obtain ⟨u0, hu0, rfl⟩ := hu
              have h1 := Tm.after_queue _ _ _ v hv hok
              rw [this u0 hu0 v h1] at hok
              cases hok
          · intro u hu v hv hok
            simp only [Option.some.injEq] at hu
            subst hu
            have h1 := Tm.after_queue _ _ _ v hv hok
            have h2 : (Tm.after w.seq false { t with queue := t.queue.eraseIdx i }).gen = t.gen := by
              unfold Tm.after
              simp only [Bool.false_eq_true, false_and, if_false]
              split <;> rfl
            rw [h2]
            exact htc v (List.mem_of_mem_eraseIdx h1) hok
        · simp only [if_neg hji]
          split
          · split
            · exact h
            · by_cases hst : (TAct.run j i script ret).Starts id
              · exact (TOp.ons_none script (hnone (hclean hst (by
                  intro i' s' r' he
                  cases he
                  exact hji rfl)))).cur
              · exact TOp.ons_cur script (fun o ho h' => hst ⟨o, ho, h'⟩) h
          · exact h

theorem Tms.run_current {l : Tms} {as : List TAct} {es : List TEv} (hr : Tms.Run [] as l es) (id : Nat)
    (hclean : ∀ pre a post l es, as = pre ++ a :: post → Tms.Run [] pre l es → a.Starts id → (∀ i script ret, a ≠ .run id i script ret) → ¬ l.expiryQueued id) : Tm.OCur (l.find id) := by
  generalize h0 : ([] : Tms) = l0 at hr
  induction hr with
  | nil => subst h0; intro t ht; cases ht
  | snoc s1 s2 as a es es' hr hs ih =>
    subst h0
    exact Tms.step_current (Tms.run_inv hr id) (ih (fun pre b post l es h1 h2 h3 h4 => hclean pre b (post ++ [a]) l es (by rw [h1]; simp) h2 h3 h4))
      (fun h3 h4 => hclean as a [] s1 es rfl hr h3 h4) hs

end StAsio
