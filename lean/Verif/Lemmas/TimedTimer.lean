import Verif.Spec.TimedTimer
set_option autoImplicit false
namespace StAsio

theorem ttStarts_append (a b : List TtEv) : ttStarts (a ++ b) = ttStarts a ++ ttStarts b := by
  induction a with
  | nil => rfl
  | cons e a ih => cases e <;> simp [ttStarts, ih]

theorem ttFired_append (a b : List TtEv) : ttFired (a ++ b) = ttFired a ++ ttFired b := by
  induction a with
  | nil => rfl
  | cons e a ih => cases e <;> simp [ttFired, ih]

theorem due_append (u : Nat) (a b : List TtEv) : due u (a ++ b) = b.foldl (dueStep u) (due u a) := by simp [due]
theorem pendings_append (a b : List TtEv) : pendings (a ++ b) = b.foldl pendStep (pendings a) := by simp [pendings]
theorem running_append (a b : List TtEv) : running (a ++ b) = b.foldl callStep (running a) := by simp [running]

/-- Start number `g` was made at a time from which its milliseconds have passed at `t`. -/
def Elapsed (u : Nat) (es : List TtEv) (g t : Nat) : Prop := ∃ t0 ms, (ttStarts es)[g - 1]? = some (t0, ms) ∧ t0 + ms * u ≤ t

theorem Elapsed.mono {u g t t' : Nat} {es fs : List TtEv} (h : Elapsed u es g t) (ht : t ≤ t') : Elapsed u (es ++ fs) g t' := by
  obtain ⟨t0, ms, h1, h2⟩ := h
  refine ⟨t0, ms, ?_, by omega⟩
  rw [ttStarts_append]
  exact List.getElem?_append_left (List.getElem?_eq_some_iff.mp h1).1 ▸ h1

/-- The outstanding wait belongs to the newest start. -/
def ArmedOk (u : Nat) (off : Int) (es : List TtEv) (s : Tt) (w : TtWait) : Prop :=
  w.gen = s.gen ∧ ∃ t0 ms, (ttStarts es)[s.gen - 1]? = some (t0, ms) ∧ w.dl = (t0 + ms * u : Nat) + off

structure Tt.Inv (u : Nat) (steady : Bool) (off : Int) (es : List TtEv) (s : Tt) : Prop where
  clock : s.clock steady = s.mono + off
  gen : s.gen = (ttStarts es).length
  armed : ∀ w, s.armed = some w → 0 < s.gen ∧ ArmedOk u off es s w
  queue : ∀ w ∈ s.queue, w.ok = true → 0 < w.gen ∧ w.gen ≤ s.gen ∧ Elapsed u es w.gen s.mono
  fired : ∀ g ∈ ttFired es, 0 < g ∧ g ≤ s.gen
  nodup : ((s.armed.map TtWait.gen).toList ++ (s.queue.filter TWait.ok).map TWait.gen ++ ttFired es).Nodup
  pend : pendings es = (s.queue.filter TWait.ok).length
  run : running es = s.calls.length

theorem Tt.init_inv (u : Nat) (steady : Bool) (m : Nat) (x : Int) : (Tt.init m x).Inv u steady (if steady then 0 else x - m) [] := by
  constructor <;> simp [Tt.init, ttStarts, ttFired, pendings, running]
  cases steady <;> simp [Tt.clock]
  omega

theorem split_at {α : Type} {l : List α} {i : Nat} {w : α} (h : l[i]? = some w) : ∃ a b, l = a ++ w :: b ∧ l.eraseIdx i = a ++ b := by
  obtain ⟨hi, hw⟩ := List.getElem?_eq_some_iff.mp h
  refine ⟨l.take i, l.drop (i + 1), ?_, List.eraseIdx_eq_take_drop_succ l i⟩
  rw [← hw, List.getElem_cons_drop, List.take_append_drop]

theorem Tt.Inv.tick {u : Nat} {steady : Bool} {off : Int} {es : List TtEv} {s : Tt} (h : s.Inv u steady off es) (d : Nat) :
    Tt.Inv u steady off es { s with mono := s.mono + d, sys := s.sys + d } := by
  constructor
  · have := h.clock
    cases steady <;> simp [Tt.clock] at this ⊢ <;> omega
  · exact h.gen
  · exact h.armed
  · intro w hw hok
    obtain ⟨h1, h2, h3⟩ := h.queue w hw hok
    refine ⟨h1, h2, ?_⟩
    have := h3.mono (fs := []) (t' := s.mono + d) (by omega)
    rwa [List.append_nil] at this
  · exact h.fired
  · exact h.nodup
  · exact h.pend
  · exact h.run

/-- Events that say nothing about starts, calls and expiries. -/
theorem Tt.Inv.quiet {u : Nat} {steady : Bool} {off : Int} {es fs : List TtEv} {s : Tt} (h : s.Inv u steady off es) (h1 : ttStarts fs = []) (h2 : ttFired fs = [])
    (h3 : fs.foldl pendStep (pendings es) = pendings es) (h4 : fs.foldl callStep (running es) = running es) : s.Inv u steady off (es ++ fs) := by
  have hst : ttStarts (es ++ fs) = ttStarts es := by rw [ttStarts_append, h1, List.append_nil]
  constructor
  · exact h.clock
  · rw [hst]; exact h.gen
  · intro w hw
    obtain ⟨a, b, t0, ms, c, d⟩ := h.armed w hw
    exact ⟨a, b, t0, ms, by rw [hst]; exact c, d⟩
  · intro w hw hok
    obtain ⟨a, b, c⟩ := h.queue w hw hok
    exact ⟨a, b, c.mono (Nat.le_refl _)⟩
  · rw [ttFired_append, h2, List.append_nil]; exact h.fired
  · rw [ttFired_append, h2, List.append_nil]; exact h.nodup
  · rw [pendings_append, h3]; exact h.pend
  · rw [running_append, h4]; exact h.run

/-- Fields the invariant does not look at. -/
theorem Tt.Inv.same {u : Nat} {steady : Bool} {off : Int} {es : List TtEv} {s s' : Tt} (h : s.Inv u steady off es) (h1 : s'.mono = s.mono) (h2 : s'.sys = s.sys) (h3 : s'.gen = s.gen)
    (h4 : s'.armed = s.armed) (h5 : s'.queue = s.queue) (h6 : s'.calls = s.calls) : s'.Inv u steady off es := by
  constructor
  · have := h.clock
    simpa [Tt.clock, h1, h2] using this
  · rw [h3]; exact h.gen
  · intro w hw
    rw [h4] at hw
    obtain ⟨a, b, t0, ms, c, d⟩ := h.armed w hw
    exact ⟨by rw [h3]; exact a, by rw [h3]; exact b, t0, ms, by rw [h3]; exact c, d⟩
  · intro w hw hok
    rw [h5] at hw
    rw [h1, h3]
    exact h.queue w hw hok
  · rw [h3]; exact h.fired
  · rw [h4, h5]; exact h.nodup
  · rw [h5]; exact h.pend
  · rw [h6]; exact h.run

theorem Tt.Inv.abort {u : Nat} {steady : Bool} {off : Int} {es : List TtEv} {s : Tt} (h : s.Inv u steady off es) : s.abort.Inv u steady off es := by
  unfold Tt.abort
  split
  · exact h
  · next w hw =>
    constructor
    · exact h.clock
    · exact h.gen
    · intro w hw; cases hw
    · intro x hx hok
      simp only [List.mem_append, List.mem_singleton] at hx
      rcases hx with hx | rfl
      · exact h.queue x hx hok
      · cases hok
    · exact h.fired
    · have := h.nodup
      rw [hw] at this
      simp only [List.filter_append]
      simp at this ⊢
      exact this.2
    · have := h.pend
      simpa using this
    · exact h.run

theorem Tt.abort_armed (s : Tt) : s.abort.armed = none := by
  unfold Tt.abort
  split
  · assumption
  · rfl

theorem Tt.abort_same (s : Tt) : s.abort.mono = s.mono ∧ s.abort.sys = s.sys ∧ s.abort.gen = s.gen ∧ s.abort.seq = s.seq ∧ s.abort.status = s.status ∧ s.abort.calls = s.calls ∧
    s.abort.interval = s.interval ∧ s.abort.crashed = s.crashed ∧ s.abort.queue.filter TWait.ok = s.queue.filter TWait.ok ∧ s.abort.hasCb = s.hasCb := by
  unfold Tt.abort
  split <;> simp

/-- A start, by the program or by the library. -/
theorem Tt.Inv.start {u : Nat} {steady : Bool} {off : Int} {es : List TtEv} {s : Tt} (h : s.Inv u steady off es) {ms : Nat} {e : TtEv} (he : e = .start s.mono ms ∨ ∃ b, e = .again b s.mono ms) :
    (Tt.startMs u steady ms s).Inv u steady off (es ++ [e]) := by
  have hst : ttStarts [e] = [(s.mono, ms)] := by rcases he with rfl | ⟨b, rfl⟩ <;> rfl
  have hf : ttFired [e] = [] := by rcases he with rfl | ⟨b, rfl⟩ <;> rfl
  have hp : [e].foldl pendStep (pendings es) = pendings es := by rcases he with rfl | ⟨b, rfl⟩ <;> rfl
  have hc : [e].foldl callStep (running es) = running es := by rcases he with rfl | ⟨b, rfl⟩ <;> rfl
  have h' : (Tt.abort { s with status := .started }).Inv u steady off es := Tt.Inv.abort (h.same rfl rfl rfl rfl rfl rfl)
  obtain ⟨a1, a2, a3, a4, a5, a6, a7, a8⟩ := Tt.abort_same { s with status := .started }
  have ha := Tt.abort_armed { s with status := .started }
  unfold Tt.startMs
  generalize Tt.abort { s with status := .started } = s1 at *
  have hg := h'.gen
  constructor
  · exact h'.clock
  · simp only [ttStarts_append, hst, List.length_append, hg]
    rfl
  · intro w hw
    simp only [Option.some.injEq] at hw
    subst hw
    refine ⟨by simp, rfl, s.mono, ms, ?_, ?_⟩
    · simp only [ttStarts_append, hst, hg, Nat.add_sub_cancel]
      rw [List.getElem?_append_right (Nat.le_refl _)]
      simp
    · simp only
      have := h'.clock
      rw [this, a1]
      simp only
      omega
  · intro w hw hok
    obtain ⟨q1, q2, q3⟩ := h'.queue w hw hok
    exact ⟨q1, Nat.le_succ_of_le q2, q3.mono (Nat.le_refl _)⟩
  · intro g hgm
    rw [ttFired_append, hf, List.append_nil] at hgm
    obtain ⟨q1, q2⟩ := h'.fired g hgm
    exact ⟨q1, Nat.le_succ_of_le q2⟩
  · have := h'.nodup
    rw [ha] at this
    rw [ttFired_append, hf, List.append_nil]
    simp only [Option.map_none, Option.toList_none, List.nil_append] at this
    simp only [Option.map_some, Option.toList_some, List.cons_append, List.nil_append, List.nodup_cons]
    refine ⟨?_, this⟩
    intro hm
    rcases List.mem_append.mp hm with hm | hm
    · obtain ⟨x, x1, x2⟩ := List.mem_map.mp hm
      obtain ⟨x3, x4⟩ := List.mem_filter.mp x1
      have := (h'.queue x x3 x4).2.1
      omega
    · have := (h'.fired _ hm).2
      omega
  · rw [pendings_append, hp]; exact h'.pend
  · rw [running_append, hc]; exact h'.run

theorem Tt.live_inv {u : Nat} {steady aligned : Bool} {off : Int} {es fs : List TtEv} {s s' : Tt} {a : TtAct} (h : s.Inv u steady off es) (hcl : steady = true ∨ TtEv.clock ∉ fs)
    (hs : s.live u steady aligned a = some (s', fs)) : s'.Inv u steady off (es ++ fs) := by
  cases a with
  | tick d =>
    simp only [Tt.live, Option.some.injEq, Prod.mk.injEq] at hs
    obtain ⟨rfl, rfl⟩ := hs
    rw [List.append_nil]
    exact h.tick d
  | setClock x =>
    simp only [Tt.live, Option.some.injEq, Prod.mk.injEq] at hs
    obtain ⟨rfl, rfl⟩ := hs
    rcases hcl with rfl | hcl
    · have h2 := h.quiet (fs := [.clock]) rfl rfl rfl rfl
      constructor
      · have := h.clock; simpa [Tt.clock] using this
      · exact h2.gen
      · exact h2.armed
      · exact h2.queue
      · exact h2.fired
      · exact h2.nodup
      · exact h2.pend
      · exact h2.run
    · simp at hcl
  | set ms =>
    simp only [Tt.live, Option.some.injEq, Prod.mk.injEq] at hs
    obtain ⟨rfl, rfl⟩ := hs
    exact Tt.Inv.start (s := { s with interval := ms % 4294967296, hasCb := true }) (h.same rfl rfl rfl rfl rfl rfl) (.inl rfl)
  | start =>
    simp only [Tt.live] at hs
    split at hs
    · simp only [Option.some.injEq, Prod.mk.injEq] at hs
      obtain ⟨rfl, rfl⟩ := hs
      exact h.start (.inl rfl)
    · simp only [Option.some.injEq, Prod.mk.injEq] at hs
      obtain ⟨rfl, rfl⟩ := hs
      rw [List.append_nil]; exact h
  | stop =>
    simp only [Tt.live, Option.some.injEq, Prod.mk.injEq] at hs
    obtain ⟨rfl, rfl⟩ := hs
    refine Tt.Inv.quiet ?_ rfl rfl rfl rfl
    split
    · exact Tt.Inv.abort (h.same rfl rfl rfl rfl rfl rfl)
    · exact h
  | changeInterval ms =>
    simp only [Tt.live, Option.some.injEq, Prod.mk.injEq] at hs
    obtain ⟨rfl, rfl⟩ := hs
    exact Tt.Inv.quiet (h.same rfl rfl rfl rfl rfl rfl) rfl rfl rfl rfl
  | expire =>
    simp only [Tt.live] at hs
    split at hs
    · cases hs
    · next w hw =>
      split at hs
      · next hd =>
        simp only [Option.some.injEq, Prod.mk.injEq] at hs
        obtain ⟨rfl, rfl⟩ := hs
        obtain ⟨p, hg, t0, ms, ha, hdl⟩ := h.armed w hw
        have hst : ttStarts (es ++ [.expired]) = ttStarts es := by rw [ttStarts_append]; simp [ttStarts]
        have hff : ttFired (es ++ [.expired]) = ttFired es := by rw [ttFired_append]; simp [ttFired]
        have hel : Elapsed u es w.gen s.mono := by
          refine ⟨t0, ms, by rw [hg]; exact ha, ?_⟩
          have := h.clock
          rw [this, hdl] at hd
          omega
        constructor
        · exact h.clock
        · rw [hst]; exact h.gen
        · intro w hw; cases hw
        · intro x hx hok
          rcases List.mem_append.mp hx with hx | hx
          · obtain ⟨q1, q2, q3⟩ := h.queue x hx hok
            exact ⟨q1, q2, q3.mono (Nat.le_refl _)⟩
          · rw [List.mem_singleton] at hx
            subst hx
            exact ⟨by simp only; omega, by simp only; omega, hel.mono (Nat.le_refl _)⟩
        · rw [hff]; exact h.fired
        · have := h.nodup
          rw [hw] at this
          rw [hff]
          simp only [List.filter_append]
          simp at this ⊢
          grind
        · rw [pendings_append]
          have := h.pend
          simp [pendStep, this]
        · rw [running_append]; exact h.run
      · cases hs
  | run i =>
    simp only [Tt.live] at hs
    split at hs
    · cases hs
    · next w hw =>
      obtain ⟨l1, l2, e1, e2⟩ := split_at hw
      rw [e2] at hs
      have hmem : w ∈ s.queue := by rw [e1]; simp
      split at hs
      · next hc =>
        simp only [Option.some.injEq, Prod.mk.injEq] at hs
        obtain ⟨rfl, rfl⟩ := hs
        obtain ⟨q1, q2, q3⟩ := h.queue w hmem hc.2
        have hst : ttStarts (es ++ [.fired s.mono w.gen]) = ttStarts es := by rw [ttStarts_append]; simp [ttStarts]
        have hff : ttFired (es ++ [.fired s.mono w.gen]) = ttFired es ++ [w.gen] := by rw [ttFired_append]; simp [ttFired]
        constructor
        · exact h.clock
        · rw [hst]; exact h.gen
        · intro x hx
          obtain ⟨a, b, t0, ms, c, d⟩ := h.armed x hx
          exact ⟨a, b, t0, ms, by rw [hst]; exact c, d⟩
        · intro x hx hok
          obtain ⟨r1, r2, r3⟩ := h.queue x (by rw [e1]; grind) hok
          exact ⟨r1, r2, r3.mono (Nat.le_refl _)⟩
        · intro g hg
          rw [hff] at hg
          rcases List.mem_append.mp hg with hg | hg
          · exact h.fired g hg
          · rw [List.mem_singleton] at hg
            subst hg
            exact ⟨q1, q2⟩
        · have := h.nodup
          rw [hff]
          rw [e1] at this
          simp only [List.filter_append, List.filter_cons, hc.2, if_true, List.map_append, List.map_cons] at this ⊢
          refine List.Perm.nodup ?_ this
          simp only [List.append_assoc, List.cons_append]
          refine List.Perm.append_left _ (List.Perm.append_left _ ?_)
          rw [← List.append_assoc]
          exact (List.perm_append_singleton _ _).symm
        · rw [pendings_append]
          have := h.pend
          rw [e1] at this
          simp [hc.2] at this
          simp [pendStep, this]
        · rw [running_append]
          have := h.run
          simp [callStep, this]
      · next hc =>
        simp only [Option.some.injEq, Prod.mk.injEq] at hs
        obtain ⟨rfl, rfl⟩ := hs
        have hbase : Tt.Inv u steady off (es ++ (if w.ok = true then [.skipped] else [])) { s with queue := l1 ++ l2 } := by
          have hst : ttStarts (es ++ (if w.ok = true then [.skipped] else [])) = ttStarts es := by rw [ttStarts_append]; split <;> simp [ttStarts]
          have hff : ttFired (es ++ (if w.ok = true then [.skipped] else [])) = ttFired es := by rw [ttFired_append]; split <;> simp [ttFired]
          constructor
          · exact h.clock
          · rw [hst]; exact h.gen
          · intro x hx
            obtain ⟨a, b, t0, ms, c, d⟩ := h.armed x hx
            exact ⟨a, b, t0, ms, by rw [hst]; exact c, d⟩
          · intro x hx hok
            obtain ⟨r1, r2, r3⟩ := h.queue x (by rw [e1]; grind) hok
            exact ⟨r1, r2, r3.mono (Nat.le_refl _)⟩
          · rw [hff]; exact h.fired
          · rw [hff]
            refine List.Nodup.sublist ?_ h.nodup
            refine List.Sublist.append_right (List.Sublist.append_left (List.Sublist.map _ (List.Sublist.filter _ ?_)) _) _
            rw [e1]
            exact List.Sublist.append_left (List.sublist_cons_self _ _) _
          · rw [pendings_append]
            have := h.pend
            rw [e1] at this
            simp only [List.filter_append, List.filter_cons] at this ⊢
            split <;> rename_i hok
            · simp [hok] at this
              simp [pendStep, this]
            · simpa [hok] using this
          · rw [running_append]
            have := h.run
            split <;> simpa [callStep] using this
        revert hbase
        generalize (es ++ if w.ok = true then [TtEv.skipped] else []) = es2
        intro hbase
        split
        · exact hbase.same rfl rfl rfl rfl rfl rfl
        · exact hbase
  | finish i ret =>
    simp only [Tt.live] at hs
    split at hs
    · cases hs
    · next k hk =>
      have hbase : Tt.Inv u steady off (es ++ [.ended s.mono ret]) { s with calls := s.calls.eraseIdx i } := by
        have h2 : s.Inv u steady off es := h
        have hst : ttStarts (es ++ [.ended s.mono ret]) = ttStarts es := by rw [ttStarts_append]; simp [ttStarts]
        have hff : ttFired (es ++ [.ended s.mono ret]) = ttFired es := by rw [ttFired_append]; simp [ttFired]
        constructor
        · exact h.clock
        · rw [hst]; exact h.gen
        · intro x hx
          obtain ⟨a, b, t0, ms, c, d⟩ := h.armed x hx
          exact ⟨a, b, t0, ms, by rw [hst]; exact c, d⟩
        · intro x hx hok
          obtain ⟨r1, r2, r3⟩ := h.queue x hx hok
          exact ⟨r1, r2, r3.mono (Nat.le_refl _)⟩
        · rw [hff]; exact h.fired
        · rw [hff]; exact h.nodup
        · rw [pendings_append]; exact h.pend
        · rw [running_append]
          have := h.run
          obtain ⟨l1, l2, e1, e2⟩ := split_at hk
          simp only [e2]
          rw [e1] at this
          simp at this
          simp [callStep, this]
      split at hs
      · split at hs
        · simp only [Option.some.injEq, Prod.mk.injEq] at hs
          obtain ⟨rfl, rfl⟩ := hs
          have : (es ++ [TtEv.ended s.mono ret, .crash]) = (es ++ [.ended s.mono ret]) ++ [.crash] := by simp
          rw [this]
          exact Tt.Inv.quiet (hbase.same rfl rfl rfl rfl rfl rfl) rfl rfl rfl rfl
        · next ms hms =>
          simp only [Option.some.injEq, Prod.mk.injEq] at hs
          obtain ⟨rfl, rfl⟩ := hs
          have : (es ++ [TtEv.ended s.mono ret, .again k.mono s.mono ms]) = (es ++ [.ended s.mono ret]) ++ [.again k.mono s.mono ms] := by simp
          rw [this]
          exact Tt.Inv.start hbase (.inr ⟨_, rfl⟩)
      · simp only [Option.some.injEq, Prod.mk.injEq] at hs
        obtain ⟨rfl, rfl⟩ := hs
        split
        · exact hbase.same rfl rfl rfl rfl rfl rfl
        · exact hbase

theorem Tt.step_eq {u : Nat} {steady aligned : Bool} {s s' : Tt} {a : TtAct} {fs : List TtEv} (hs : s.step u steady aligned a = some (s', fs)) :
    s.crashed = false ∧ s.live u steady aligned a = some (s', fs) := by
  unfold Tt.step at hs
  split at hs
  · cases hs
  · next h => exact ⟨by simpa using h, hs⟩

theorem Tt.step_inv {u : Nat} {steady aligned : Bool} {off : Int} {es fs : List TtEv} {s s' : Tt} {a : TtAct} (h : s.Inv u steady off es) (hcl : steady = true ∨ TtEv.clock ∉ fs)
    (hs : s.step u steady aligned a = some (s', fs)) : s'.Inv u steady off (es ++ fs) := Tt.live_inv h hcl (Tt.step_eq hs).2

theorem Tt.run_inv {u : Nat} {steady aligned : Bool} {m : Nat} {x : Int} {es : List TtEv} {s : Tt} {as : List TtAct} (hcl : steady = true ∨ TtEv.clock ∉ es)
    (hr : Tt.Run u steady aligned (Tt.init m x) as s es) : s.Inv u steady (if steady then 0 else x - m) es := by
  induction hr with
  | nil => exact Tt.init_inv u steady m x
  | snoc s1 s2 as a es es' hr hs ih =>
    exact Tt.step_inv (ih (by grind)) (by grind) hs

theorem Tt.exec_run {u : Nat} {steady aligned : Bool} {s s' : Tt} {as : List TtAct} {es : List TtEv} (h : Tt.exec u steady aligned s as = some (s', es)) :
    Tt.Run u steady aligned s as s' es := by
  suffices H : ∀ (as : List TtAct) (s1 s2 s3 : Tt) (bs : List TtAct) (es fs : List TtEv), Tt.Run u steady aligned s1 bs s2 es → Tt.exec u steady aligned s2 as = some (s3, fs) →
      Tt.Run u steady aligned s1 (bs ++ as) s3 (es ++ fs) from by
    have := H as s s s' [] [] es (.nil s) h
    simpa using this
  intro as
  induction as with
  | nil =>
    intro s1 s2 s3 bs es fs hr he
    simp only [Tt.exec, Option.some.injEq, Prod.mk.injEq] at he
    obtain ⟨rfl, rfl⟩ := he
    simpa using hr
  | cons a as ih =>
    intro s1 s2 s3 bs es fs hr he
    simp only [Tt.exec, Option.bind_eq_bind, Option.pure_def] at he
    rw [Option.bind_eq_some_iff] at he
    obtain ⟨⟨t, es1⟩, h1, he⟩ := he
    rw [Option.bind_eq_some_iff] at he
    obtain ⟨⟨t2, es2⟩, h2, he⟩ := he
    simp only [Option.some.injEq, Prod.mk.injEq] at he
    obtain ⟨rfl, rfl⟩ := he
    have := ih s1 t t2 (bs ++ [a]) (es ++ es1) es2 (.snoc _ _ _ _ _ _ _ hr h1) h2
    simpa using this

end StAsio
