import Verif.Lemmas.Timer
import Verif.Model.TimerRace
/-!
C32, C33: timers (include/timer.h).
-/
set_option autoImplicit false
namespace StAsio

/-- **C32** (one entry): whatever is done, the table holds at most one entry per timer id. -/
theorem C32_one_entry {l : Tms} {as : List TAct} {es : List TEv} (hr : Tms.Run [] as l es) : (l.map Tm.id).Nodup := Tms.run_nodup hr

/-- **C32** (stop): from any reachable state, once stop_timer(id) (or stop_all_timer, or any operation that stops `id`) was called, the call back of `id` is not invoked by any continuation in which nobody starts it again,
whatever was queued before. -/
theorem C32_stop {l l' : Tms} {as bs : List TAct} {es fs : List TEv} {id : Nat} {o : TOp} (hr : Tms.Run [] as l es) (ho : o.Stops id)
    (hb : ∀ b ∈ bs, ¬ b.Starts id) (hr' : Tms.Run (l.op o) bs l' fs) : (∀ g cb, TEv.fired id g cb ∉ fs) ∧ ¬ l'.isTimer id := by
  have h0 : ∀ t, (l.op o).find id = some t → t.status ≠ .started := by
    have hi := Tms.run_inv hr id
    rw [Tms.find_op]
    intro t
    have hm : ∀ f : Tm → Tm, (∀ t : Tm, (f t).status ≠ .started) → ∀ t, (l.find id).map f = some t → t.status ≠ .started := by
      intro f hf t ht
      rw [Option.map_eq_some_iff] at ht
      obtain ⟨u, hu, rfl⟩ := ht
      exact hf u
    have hstop : ∀ t : Tm, t.stop.status ≠ .started := by
      intro t
      unfold Tm.stop
      split
      · unfold Tm.abort; split <;> simp
      · assumption
    cases o with
    | createOrUpdate _ _ _ _ => exact absurd ho (by simp [TOp.Stops])
    | start _ => exact absurd ho (by simp [TOp.Stops])
    | stop j => simp only [TOp.Stops] at ho; simp only [TOp.on, if_pos ho]; exact hm _ hstop t
    | stopAll => exact hm _ hstop t
    | stopAllBut j => simp only [TOp.Stops] at ho; simp only [TOp.on, if_neg ho]; exact hm _ hstop t
    | cancelStatus j => simp only [TOp.Stops] at ho; simp only [TOp.on, if_pos ho]; exact hm _ (by simp) t
    | changeInterval _ _ => exact absurd ho (by simp [TOp.Stops])
    | changeCallBack _ _ => exact absurd ho (by simp [TOp.Stops])
  have h := Tms.run_not_started hb h0 hr'
  refine ⟨?_, fun ⟨t, ht, hst⟩ => h.2 t ht hst⟩
  intro g cb hm
  have := (mem_firedGens id g fs).2 ⟨cb, hm⟩
  rw [h.1] at this
  cases this

/-- **C32** (keeps running): a call back that returns true and whose body does not stop the timer leaves it started, with a new schedule armed. -/
theorem C32_keeps_running {l l' : Tms} {as : List TAct} {es : List TEv} {id i g cb : Nat} {script : List TOp} (hr : Tms.Run [] as l es)
    (hs : l.step (.run id i script true) = some (l', [.fired id g cb])) (hno : ∀ o ∈ script, ¬ o.Stops id) :
    l'.isTimer id ∧ ∃ t ∈ l.find id, ∃ t' ∈ l'.find id, t.gen < t'.gen ∧ t'.armed = some (t'.seq, t'.gen) := by
  obtain ⟨t, w, hf, hw, rfl, hok, hst, hcb, hf'⟩ := Tms.step_fired hs
  obtain ⟨hi, _⟩ := Tm.erase_inv ((Tms.run_inv hr id).2 t hf) hw
  obtain ⟨t', e, i', c', g', _, s'⟩ := TOp.ons_counts (id := id) script hi (by simp [hcb])
  have hs' := s' hst hno
  rw [e, Option.map_some] at hf'
  have he : Tm.after w.seq true t' = t'.start.1 := by simp [Tm.after, hs']
  rw [he] at hf'
  obtain ⟨a1, a2, a3, _⟩ := Tm.start_eq i' c'
  refine ⟨⟨_, hf', a1⟩, t, hf, _, hf', ?_, a3⟩
  rw [a2, g']
  simp only
  omega

/-- **C32** (stops): a call back for the current schedule that returns false and whose body does not start the timer leaves it stopped (and by C32_stop's argument it is not invoked again until somebody starts it). -/
theorem C32_stops {l l' l'' : Tms} {as bs : List TAct} {es fs : List TEv} {id i g cb : Nat} {script : List TOp} (hr : Tms.Run [] as l es)
    (hs : l.step (.run id i script false) = some (l', [.fired id g cb])) (hcur : ∃ t ∈ l.find id, t.gen = g) (hno : ∀ o ∈ script, ¬ o.Starts id)
    (hb : ∀ b ∈ bs, ¬ b.Starts id) (hr' : Tms.Run l' bs l'' fs) : ¬ l'.isTimer id ∧ ∀ g' cb', TEv.fired id g' cb' ∉ fs := by
  obtain ⟨t, w, hf, hw, rfl, hok, hst, hcb, hf'⟩ := Tms.step_fired hs
  have hi0 := (Tms.run_inv hr id).2 t hf
  obtain ⟨hi, _⟩ := Tm.erase_inv hi0 hw
  obtain ⟨t', e, i', c', g', _, _⟩ := TOp.ons_counts (id := id) script hi (by simp [hcb])
  have hk : startsIn id script = 0 := by
    simp only [startsIn, List.length_eq_zero_iff, List.filter_eq_nil_iff, decide_eq_true_eq]
    exact hno
  rw [hk] at g'
  obtain ⟨t0, ht0, hg0⟩ := hcur
  rw [hf] at ht0
  cases ht0
  have hq : w.seq = t'.seq := by
    rw [(hi0.queue w (List.mem_of_getElem? hw)).2, i'.seq, g']
    simp [hg0]
  rw [e, Option.map_some] at hf'
  have he : Tm.after w.seq false t' = { t' with status := .canceled } := by simp [Tm.after, hq]
  rw [he] at hf'
  have h0 : ∀ t, l'.find id = some t → t.status ≠ .started := by
    intro u hu; rw [hf'] at hu; cases hu; simp
  refine ⟨fun ⟨u, hu, hst⟩ => h0 u hu hst, ?_⟩
  intro g' cb' hm
  have := (mem_firedGens id g' fs).2 ⟨cb', hm⟩
  rw [(Tms.run_not_started hb h0 hr').1] at this
  cases this

/-- **C32** (restart inside the call back): if the body of the call back starts the timer and does not stop it afterwards, the timer is started after the call back whatever it returns, provided that fewer than 256 schedules were
started since the one that expired. -/
theorem C32_restart {l l' : Tms} {as : List TAct} {es : List TEv} {id i g cb : Nat} {pre post : List TOp} {o : TOp} {ret : Bool} (hr : Tms.Run [] as l es)
    (hs : l.step (.run id i (pre ++ o :: post) ret) = some (l', [.fired id g cb])) (ho : o.Starts id) (hno : ∀ o ∈ post, ¬ o.Stops id)
    (hk : ∃ t ∈ l.find id, t.gen + startsIn id (pre ++ o :: post) < g + 256) : l'.isTimer id := by
  obtain ⟨t, w, hf, hw, rfl, hok, hst, hcb, hf'⟩ := Tms.step_fired hs
  have hi0 := (Tms.run_inv hr id).2 t hf
  obtain ⟨hi, _⟩ := Tm.erase_inv hi0 hw
  obtain ⟨t', e, i', g', s'⟩ := TOp.ons_restart (id := id) pre post o hi (by simp [hcb]) ho hno
  rw [e, Option.map_some] at hf'
  obtain ⟨t0, ht0, hg0⟩ := hk
  rw [hf] at ht0
  cases ht0
  have hwq := hi0.queue w (List.mem_of_getElem? hw)
  have hpos : 0 < startsIn id (pre ++ o :: post) := by
    rw [startsIn, List.length_pos_iff]
    intro hn
    rw [List.filter_eq_nil_iff] at hn
    exact hn o (by simp) (by simpa using ho)
  have hq : w.seq ≠ t'.seq := by
    rw [hwq.2, i'.seq, g']
    have := hwq.1
    simp only
    omega
  refine ⟨_, hf', ?_⟩
  unfold Tm.after
  split
  · rename_i hc
    exact (Tm.start_eq i' (i'.cb s')).1
  · skip
    exact s'

/-- The bound of C32_restart is needed: a call back that restarts its timer 256 times and returns false stops it (timer.h:193: the sequence number, an unsigned char, is equal again), although a new schedule is armed. -/
theorem C32_fails_wrap : ∃ (as : List TAct) (l l' : Tms) (es : List TEv) (script : List TOp), Tms.Run [] as l es ∧ script ≠ [] ∧ (∀ o ∈ script, o = TOp.start 7) ∧
    l.step (.run 7 0 script false) = some (l', [.fired 7 1 0]) ∧ ¬ l'.isTimer 7 ∧ ∃ t ∈ l'.find 7, t.armed.isSome := by
  have h : ∃ r, Tms.exec [] [.op (.createOrUpdate 7 100 0 true), .expire 7] = some r := ⟨_, rfl⟩
  obtain ⟨⟨l, es⟩, h⟩ := h
  have hr := Tms.exec_run h
  have e : some (l, es) = some _ := h.symm.trans rfl
  cases e
  have h2 : ∃ r, Tms.step [{ id := 7, seq := 0, status := .started, interval := 100, cb := some 0, armed := none, queue := [⟨true, 0, 1⟩], gen := 1 }]
      (.run 7 0 (List.replicate 256 (TOp.start 7)) false) = some r ∧ r.2 = [.fired 7 1 0] ∧ (Tms.find r.1 7).map Tm.status = some .canceled ∧ ((Tms.find r.1 7).map fun t => t.armed.isSome) = some true := by
    have hf : (List.replicate 256 (TOp.start 7)).foldl (TOp.on 7) (some { id := 7, seq := 0, status := .started, interval := 100, cb := some 0, armed := none, queue := [], gen := 1 }) =
        some (((List.replicate 256 ()).foldl (fun t _ => Tm.start t |>.1) { id := 7, seq := 0, status := .started, interval := 100, cb := some 0, armed := none, queue := [], gen := 1 })) := by
      generalize ({ id := 7, seq := 0, status := .started, interval := 100, cb := some 0, armed := none, queue := [], gen := 1 } : Tm) = t
      generalize (256 : Nat) = n
      induction n generalizing t with
      | zero => rfl
      | succ n ih => simp only [List.replicate_succ, List.foldl_cons]; rw [show TOp.on 7 (some t) (.start 7) = some t.start.1 by simp [TOp.on]]; exact ih _
    refine ⟨_, rfl, rfl, ?_, ?_⟩
    all_goals
      rw [Tms.find_modify 7 _ (by intro t; exact Tm.after_id _ _ t), Tms.find_ops]
      rw [show (Tms.find (Tms.modify 7 (fun t : Tm => { t with queue := t.queue.eraseIdx 0 }) [{ id := 7, seq := 0, status := .started, interval := 100, cb := some 0, armed := none, queue := [⟨true, 0, 1⟩], gen := 1 }]) 7) =
        some { id := 7, seq := 0, status := .started, interval := 100, cb := some 0, armed := none, queue := [], gen := 1 } from rfl, hf]
      decide +kernel
  obtain ⟨⟨l', fs⟩, h2, rfl, h3, h4⟩ := h2
  refine ⟨_, _, l', _, List.replicate 256 (TOp.start 7), hr, by decide, fun o ho => List.eq_of_mem_replicate ho, h2, ?_, ?_⟩
  · rintro ⟨t, ht, hst⟩
    have ht : l'.find 7 = some t := ht
    simp [ht, hst] at h3
  · cases hf : Tms.find l' 7 with
    | none => simp [hf] at h4
    | some t => exact ⟨t, rfl, by simpa [hf] using h4⟩

/-- **C32** (a started timer is never forgotten): in every reachable state a started timer has its current schedule armed, or that schedule has expired and running its handler invokes the call back. -/
theorem C32_live {l : Tms} {as : List TAct} {es : List TEv} {id : Nat} (hr : Tms.Run [] as l es) (h : l.isTimer id) :
    ∃ t ∈ l.find id, t.armed = some (t.seq, t.gen) ∨ ∃ i cb, ∀ script ret, ∃ l', l.step (.run id i script ret) = some (l', [.fired id t.gen cb]) := by
  obtain ⟨t, ht, hst⟩ := h
  have ht : l.find id = some t := ht
  have hi := (Tms.run_inv hr id).2 t ht
  refine ⟨t, ht, ?_⟩
  rcases hi.live hst with h | h | h
  · exact Or.inl h
  · obtain ⟨i, hi'⟩ := List.mem_iff_getElem?.1 h
    cases hcb : t.cb with
    | none => have := hi.cb hst; simp [hcb] at this
    | some cb =>
      refine Or.inr ⟨i, cb, fun script ret => ?_⟩
      simp only [Tms.step, ht, hi']
      simp [hst, hcb]
  · cases h

/-- **C32** (an aborted wait changes nothing): the handler of a schedule that was aborted, and that is fewer than 256 schedules old, neither invokes the call back nor changes whether the timer is started, armed, or due. -/
theorem C32_aborted {l : Tms} {as : List TAct} {es : List TEv} {id i : Nat} {script : List TOp} {ret : Bool} {t : Tm} {w : TWait} (hr : Tms.Run [] as l es)
    (ht : l.find id = some t) (hw : t.queue[i]? = some w) (hab : w.ok = false) (hst : t.status = .started) (hn : t.gen < w.gen + 256) :
    ∃ l', l.step (.run id i script ret) = some (l', []) ∧ l'.find id = some { t with queue := t.queue.eraseIdx i } := by
  have hi := (Tms.run_inv hr id).2 t ht
  have hwq := hi.queue w (List.mem_of_getElem? hw)
  have hne : w.gen ≠ t.gen := by
    intro he
    have hnd := hi.nodup
    have hp := (List.getElem?_perm_eraseIdx hw)
    rcases hi.live hst with h | h | h
    · rw [Tm.waitGens, h] at hnd
      have := (List.nodup_append.1 hnd).2.1
      simp only [Option.map_some, Option.toList_some] at this
      have := (List.nodup_append.1 this).2.2 w.gen (List.mem_map.2 ⟨w, List.mem_of_getElem? hw, rfl⟩) t.gen (by simp)
      exact this he
    · have hmem := (hp.mem_iff (a := ⟨true, t.seq, t.gen⟩)).1 h
      rw [Tm.waitGens] at hnd
      have h1 := (List.nodup_append.1 (List.nodup_append.1 hnd).2.1).1
      have h2 := (hp.map TWait.gen).nodup_iff.1 h1
      rw [List.map_cons, List.nodup_cons] at h2
      rcases List.mem_cons.1 hmem with h3 | h3
      · rw [← h3] at hab; cases hab
      · exact h2.1 (List.mem_map.2 ⟨_, h3, by simp [he]⟩)
    · cases h
  refine ⟨_, by simp only [Tms.step, ht, hw]; simp [hab]; rfl, ?_⟩
  rw [Tms.find_modify id _ (by intro t; exact Tm.after_id _ _ t), Tms.find_modify id _ (by intro _; rfl), ht]
  simp only [if_true, Option.map_some]
  have hq : w.seq ≠ t.seq := by
    rw [hwq.2, hi.seq]
    have := hwq.1
    omega
  simp [Tm.after, hq]

/-- **C33** (once): the call back is invoked at most once for each schedule. -/
theorem C33_once {l : Tms} {as : List TAct} {es : List TEv} (hr : Tms.Run [] as l es) (id : Nat) : (firedGens id es).Nodup := by
  have h := Tms.run_inv hr id
  cases hf : l.find id with
  | none => rw [h.1 hf]; exact List.nodup_nil
  | some t => exact (List.nodup_append.1 (h.2 t hf).nodup).1

/-- The timer is started by an action other than its own call back. -/
def TAct.StartsFromOutside (id : Nat) (a : TAct) : Prop := a.Starts id ∧ ∀ i script ret, a ≠ .run id i script ret

/-- The full statement of C33: whenever the call back is invoked, it is for the current schedule. -/
def C33Statement (P : Nat → List TAct → Prop) : Prop := ∀ (id i g cb : Nat) (script : List TOp) (ret : Bool) (as : List TAct) (l l' : Tms) (es : List TEv), P id as → Tms.Run [] as l es →
  l.step (.run id i script ret) = some (l', [.fired id g cb]) → ∃ t ∈ l.find id, t.gen = g

/-- In the run, `id` is started from outside its call back only while none of its expiries is queued. -/
def CleanStarts (id : Nat) (as : List TAct) : Prop := ∀ pre a post l es, as = pre ++ a :: post → Tms.Run [] pre l es → a.StartsFromOutside id → ¬ l.expiryQueued id

/-- **C33**, partial: if the timer is started from outside of its call back only while no expiry of it is queued, every invocation is for the current schedule. Missing: starts while an expiry is queued (false, see C33_fails_stale). -/
theorem C33_current_partial : C33Statement CleanStarts := by
  intro id i g cb script ret as l l' es hc hr hs
  obtain ⟨t, w, hf, hw, rfl, hok, hst, hcb, hf'⟩ := Tms.step_fired hs
  exact ⟨t, hf, (Tms.run_current hr id (fun pre a post l es h1 h2 h3 h4 => hc pre a post l es h1 h2 ⟨h3, h4⟩) t hf w (List.mem_of_getElem? hw) hok).symm⟩

/-- C33 is false of the code: an expiry queued before stop_timer and set_timer invokes the call back at once, for the old schedule. -/
theorem C33_fails_stale : ¬ C33Statement (fun _ _ => True) := by
  intro hall
  have h : ∃ r, Tms.exec [] [.op (.createOrUpdate 7 100 0 true), .expire 7, .op (.stop 7), .op (.createOrUpdate 7 100 1 true)] = some r := ⟨_, rfl⟩
  obtain ⟨⟨l, es⟩, h⟩ := h
  have hr := Tms.exec_run h
  have e : some (l, es) = some _ := h.symm.trans rfl
  cases e
  obtain ⟨t, ht, hg⟩ := hall 7 0 1 1 [] true _ _ _ _ trivial hr rfl
  revert hg
  cases ht
  decide

/-- Another consequence of the 8-bit sequence number: the handler of a wait aborted 256 starts ago cancels a live timer (it is armed but its expiry will be ignored). -/
theorem C33_fails_wrap : ∃ (as : List TAct) (l l' : Tms) (es : List TEv), Tms.Run [] as l es ∧ l.isTimer 7 ∧ l.step (.run 7 0 [] true) = some (l', []) ∧ ¬ l'.isTimer 7 ∧
    ∃ t ∈ l'.find 7, t.armed.isSome := by
  have h : ∃ r, Tms.exec [] (.op (.createOrUpdate 7 100 0 true) :: List.replicate 256 (.op (.start 7))) = some r ∧ (Tms.find r.1 7).map (fun t => (t.status, t.seq, t.armed, t.queue[0]?)) =
      some (.started, 0, some (0, 257), some ⟨false, 0, 1⟩) := by
    have he : ∀ (l : Tms) (n : Nat), Tms.exec l (List.replicate n (.op (.start 7))) = some ((List.replicate n (TOp.start 7)).foldl Tms.op l, []) := by
      intro l n
      induction n generalizing l with
      | zero => rfl
      | succ n ih => simp only [List.replicate_succ, Tms.exec, Tms.step, List.foldl_cons]; simp [ih]
    have hf : (List.replicate 256 (TOp.start 7)).foldl (TOp.on 7) (some { id := 7, seq := 0, status := .started, interval := 100, cb := some 0, armed := some (0, 1), queue := [], gen := 1 }) =
        some (((List.replicate 256 ()).foldl (fun t _ => Tm.start t |>.1) { id := 7, seq := 0, status := .started, interval := 100, cb := some 0, armed := some (0, 1), queue := [], gen := 1 })) := by
      generalize ({ id := 7, seq := 0, status := .started, interval := 100, cb := some 0, armed := some (0, 1), queue := [], gen := 1 } : Tm) = t
      generalize (256 : Nat) = n
      induction n generalizing t with
      | zero => rfl
      | succ n ih => simp only [List.replicate_succ, List.foldl_cons]; rw [show TOp.on 7 (some t) (.start 7) = some t.start.1 by simp [TOp.on]]; exact ih _
    refine ⟨_, by simp only [Tms.exec, Tms.step, he]; rfl, ?_⟩
    simp only
    rw [Tms.find_ops]
    rw [show Tms.find (Tms.op [] (.createOrUpdate 7 100 0 true)) 7 = some { id := 7, seq := 0, status := .started, interval := 100, cb := some 0, armed := some (0, 1), queue := [], gen := 1 } from rfl, hf]
    decide +kernel
  obtain ⟨⟨l, es⟩, h, h2⟩ := h
  have hr := Tms.exec_run h
  cases hf : l.find 7 with
  | none => simp [hf] at h2
  | some t =>
    simp [hf] at h2
    obtain ⟨h3, h4, h5, h6⟩ := h2
    refine ⟨_, l, _, _, hr, ⟨t, hf, h3⟩, by simp only [Tms.step, hf, h6]; rw [if_neg (by simp)], ?_⟩
    have hfind : (Tms.modify 7 (Tm.after 0 false) (Tms.modify 7 (fun t => { t with queue := t.queue.eraseIdx 0 }) l)).find 7 = some { t with queue := t.queue.eraseIdx 0, status := .canceled } := by
      rw [Tms.find_modify 7 _ (by intro t; exact Tm.after_id _ _ t), Tms.find_modify 7 _ (by intro _; rfl), hf]
      simp [Tm.after, h4]
    constructor
    · rintro ⟨u, hu, hst⟩
      have hu := hfind.symm.trans (Option.mem_def.1 hu)
      cases hu
      cases hst
    · exact ⟨_, hfind, by simp [h5]⟩

/-- The library's own use of timers across threads can lose a start: for every sequence number there is an interleaving of timer_handler finishing (call back returned false) and set_timer after which the new wait is outstanding, but its
expiry will not invoke the call back. -/
theorem C32_fails_race (q : Nat) : ∃ sched : List Bool, (TRace.exec q sched).a = .done ∧ (TRace.exec q sched).b = .done ∧ (TRace.exec q sched).armed = true ∧ (TRace.exec q sched).willFire = false :=
  ⟨[true, false, true, false], by simp [TRace.exec, TRace.init, TRace.step, TRace.willFire]⟩

/-- Without overlap the start is kept: set_timer entirely before or entirely behind the end of timer_handler. -/
theorem C32_no_race (q : Nat) : (TRace.exec q [false, false, true, true]).willFire = true ∧ (TRace.exec q [true, true, false, false]).willFire = true := by
  have h : q ≠ (q + 1) % 256 := by omega
  simp [TRace.exec, TRace.init, TRace.step, TRace.willFire, h]

theorem TRace.lost {q : Nat} (p : TRace → Prop) (sched : List Bool) (s : TRace) (hp : (∀ l r, sched = l ++ r → ¬ p (l.foldl (TRace.step q) s)))
    (I : TRace → Prop) (hI : ∀ t x, I t → ¬ p t → ¬ p (t.step q x) → I (t.step q x)) (h : I s) : I (sched.foldl (TRace.step q) s) := by
  induction sched generalizing s with
  | nil => exact h
  | cons x xs ih =>
    refine ih (s.step q x) (fun l r e => hp (x :: l) r (by rw [e]; rfl)) (hI s x h (hp [] _ rfl) (hp [x] xs rfl))

/-- Every interleaving of the two threads: the wait is outstanding exactly when start_timer got to its end; and a start can only be lost if both threads are at work at the same time: the handler between its check and its write while start_timer has not armed the
timer yet, and while it has set the status already. -/
theorem C32_race_all (q : Nat) (sched : List Bool) : ((TRace.exec q sched).armed = true ↔ (TRace.exec q sched).b = .done) ∧
    ((TRace.exec q sched).b = .done → (TRace.exec q sched).willFire = false →
      (∃ l r, sched = l ++ r ∧ (TRace.exec q l).a = .write ∧ (TRace.exec q l).b ≠ .done) ∧ ∃ l r, sched = l ++ r ∧ (TRace.exec q l).a = .write ∧ (TRace.exec q l).b ≠ .status) := by
  have h1 : (TRace.exec q sched).armed = true ↔ (TRace.exec q sched).b = .done := by
    refine TRace.lost (q := q) (fun _ => False) sched (TRace.init q) (by simp) (fun t => t.armed = true ↔ t.b = .done) ?_ (by simp [TRace.init])
    intro t x h _ _
    cases x <;> simp only [TRace.step] <;> (repeat' split) <;> simp_all
  refine ⟨h1, fun hb hw => ⟨?_, ?_⟩⟩
  · apply Classical.byContradiction
    intro hn
    have := TRace.lost (q := q) (fun t => t.a = .write ∧ t.b ≠ .done) sched (TRace.init q) (fun l r e h => hn ⟨l, r, e, h.1, h.2⟩)
      (fun t => t.status = .started ∧ t.a ≠ .write ∧ (t.b ≠ .done → t.seq = q) ∧ (t.b = .done → t.seq = (q + 1) % 256)) ?_ (by simp [TRace.init])
    · rw [TRace.willFire, h1.mpr hb, show (TRace.exec q sched).status = .started from this.1] at hw
      cases hw
    · intro t x h h2 h3
      have h4 : q ≠ (q + 1) % 256 := by omega
      cases x <;> simp only [TRace.step] at h3 ⊢ <;> (repeat' split at h3) <;> grind
  · apply Classical.byContradiction
    intro hn
    have := TRace.lost (q := q) (fun t => t.a = .write ∧ t.b ≠ .status) sched (TRace.init q) (fun l r e h => hn ⟨l, r, e, h.1, h.2⟩)
      (fun t => t.b ≠ .status → t.status = .started ∧ t.a ≠ .write) ?_ (by simp [TRace.init])
    · rw [TRace.willFire, h1.mpr hb, show (TRace.exec q sched).status = .started from (this (by rw [show (List.foldl (TRace.step q) (TRace.init q) sched).b = .done from hb]; simp)).1] at hw
      cases hw
    · intro t x h h2 h3
      cases x <;> simp only [TRace.step] at h3 ⊢ <;> (repeat' split at h3) <;> simp_all

/-! ### the hypotheses can be met -/

/-- A run of a timer that is set, expires, is restarted by its call back (which returns false), is stopped with an expiry queued and whose queued expiry then does nothing. -/
def timerDemo : List TAct :=
  [.op (.createOrUpdate 7 100 0 true), .expire 7, .run 7 0 [.start 7] false, .expire 7, .op (.stop 7), .run 7 0 [] true]

theorem timerDemo_ok : ∃ l, Tms.Run [] timerDemo l [.fired 7 1 0] ∧ ¬ l.isTimer 7 ∧ CleanStarts 7 (timerDemo.take 4) := by
  have h : ∃ r, Tms.exec [] timerDemo = some r := ⟨_, rfl⟩
  obtain ⟨⟨l, es⟩, h⟩ := h
  have hr := Tms.exec_run h
  have e : some (l, es) = some _ := h.symm.trans rfl
  cases e
  refine ⟨_, hr, ?_, ?_⟩
  · rintro ⟨t, ht, hst⟩; cases ht; cases hst
  · intro pre a post l es he hr hst
    rcases pre with _ | ⟨p, pre⟩
    · have : l = [] := by generalize hz : ([] : List TAct) = z at hr; cases hr with
        | nil => rfl
        | snoc => simp at hz
      subst this
      rintro ⟨t, ht, _⟩
      cases ht
    · exfalso
      have hm : a ∈ (timerDemo.take 4).tail := by rw [he]; simp
      simp [timerDemo] at hm
      rcases hm with rfl | rfl | rfl
      · simp [TAct.StartsFromOutside, TAct.Starts] at hst
      · exact hst.2 _ _ _ rfl
      · simp [TAct.StartsFromOutside, TAct.Starts] at hst

/-- C32_keeps_running, C32_stops, C32_restart: firings with either return value exist. -/
theorem timerDemo_fire : ∃ l, Tms.Run [] [.op (.createOrUpdate 7 100 0 true), .expire 7] l [] ∧ (∃ l', l.step (.run 7 0 [] true) = some (l', [.fired 7 1 0])) ∧
    (∃ l', l.step (.run 7 0 [] false) = some (l', [.fired 7 1 0])) ∧ (∃ l', l.step (.run 7 0 [.stop 7, .start 7] false) = some (l', [.fired 7 1 0])) ∧ ∃ t ∈ l.find 7, t.gen = 1 := by
  have h : ∃ r, Tms.exec [] [.op (.createOrUpdate 7 100 0 true), .expire 7] = some r := ⟨_, rfl⟩
  obtain ⟨⟨l, es⟩, h⟩ := h
  have hr := Tms.exec_run h
  have e : some (l, es) = some _ := h.symm.trans rfl
  cases e
  exact ⟨_, hr, ⟨_, rfl⟩, ⟨_, rfl⟩, ⟨_, rfl⟩, _, rfl, rfl⟩

/-- C32_aborted: a restarted timer has an aborted wait queued. -/
theorem timerDemo_aborted : ∃ l t, Tms.Run [] [.op (.createOrUpdate 7 100 0 true), .op (.start 7)] l [] ∧ l.find 7 = some t ∧ t.queue[0]? = some ⟨false, 0, 1⟩ ∧ t.status = .started ∧ t.gen = 2 := by
  have h : ∃ r, Tms.exec [] [.op (.createOrUpdate 7 100 0 true), .op (.start 7)] = some r := ⟨_, rfl⟩
  obtain ⟨⟨l, es⟩, h⟩ := h
  have hr := Tms.exec_run h
  have e : some (l, es) = some _ := h.symm.trans rfl
  cases e
  exact ⟨_, _, hr, rfl, rfl, rfl, rfl⟩

end StAsio
