import Verif.Model.RetryRace
/-!
Invariants of a socket that waits for its own timer.
-/
set_option autoImplicit false
namespace StAsio

theorem RrT.mem_set_of_ne {l : List RrH} {i : Nat} {h x y : RrH} (hi : l[i]? = some h) (hx : x ∈ l) (hne : x ≠ h) : x ∈ l.set i y := by
  obtain ⟨j, hj⟩ := List.getElem?_of_mem hx
  have : i ≠ j := by rintro rfl; rw [hi] at hj; exact hne (Option.some.inj hj).symm
  refine List.mem_of_getElem? (i := j) ?_
  rw [List.getElem?_set_ne this]; exact hj

theorem RrT.mem_erase_of_ne {l : List RrH} {i : Nat} {h x : RrH} (hi : l[i]? = some h) (hx : x ∈ l) (hne : x ≠ h) : x ∈ l.eraseIdx i := by
  obtain ⟨j, hj⟩ := List.getElem?_of_mem hx
  have : i ≠ j := by rintro rfl; rw [hi] at hj; exact hne (Option.some.inj hj).symm
  rw [List.mem_eraseIdx_iff_getElem?]
  exact ⟨j, this.symm, hj⟩

theorem RrT.mem_set_or {l : List RrH} {i : Nat} {x y : RrH} (hx : x ∈ l.set i y) : x ∈ l ∨ x = y := List.mem_or_eq_of_mem_set hx

theorem RrT.mem_of_erase {l : List RrH} {i : Nat} {x : RrH} (hx : x ∈ l.eraseIdx i) : x ∈ l := List.mem_of_mem_eraseIdx hx

theorem RrT.not_busy {t : RrT} : t.busy = false ↔ ∀ h ∈ t.hs, h.pc = .queued := by
  simp [RrT.busy, List.any_eq_false]

/-- Every way a handler may go on. -/
theorem RrT.handler_cases {t t' : RrT} {i : Nat} {r b : Bool} (h : t.handler i r = some (t', b)) :
    ∃ x, t.hs[i]? = some x ∧
      ((x.pc = .queued ∧ t.status = .started ∧ x.ec = false ∧ b = true ∧ t' = { t with hs := t.hs.set i { x with pc := .called } }) ∨
       (x.pc = .queued ∧ ¬ (t.status = .started ∧ x.ec = false) ∧ b = false ∧ t' = { t with hs := t.hs.set i { x with pc := .check } }) ∨
       (x.pc = .called ∧ r = true ∧ t.status = .started ∧ b = false ∧ t' = { t with hs := t.hs.set i { x with pc := .restart } }) ∨
       (x.pc = .called ∧ ¬ (r = true ∧ t.status = .started) ∧ b = false ∧ t' = { t with hs := t.hs.set i { x with pc := .check } }) ∨
       (x.pc = .restart ∧ b = false ∧ t' = { t with status := .started, hs := t.hs.set i { x with pc := .rearm } }) ∨
       (x.pc = .rearm ∧ b = false ∧ t' = ({ t with hs := t.hs.eraseIdx i } : RrT).arm) ∨
       (x.pc = .check ∧ x.prev = t.seq ∧ b = false ∧ t' = { t with hs := t.hs.set i { x with pc := .write } }) ∨
       (x.pc = .check ∧ x.prev ≠ t.seq ∧ b = false ∧ t' = { t with hs := t.hs.eraseIdx i }) ∨
       (x.pc = .write ∧ b = false ∧ t' = { t with status := .canceled, hs := t.hs.eraseIdx i })) := by
  simp only [RrT.handler] at h
  cases hx : t.hs[i]? with
  | none => rw [hx] at h; cases h
  | some x =>
    rw [hx] at h
    refine ⟨x, rfl, ?_⟩
    obtain ⟨ec, prev, pc⟩ := x
    cases pc <;> simp only [RrT.start] at h <;> grind

theorem Rd.exec_run {one : Bool} {s t : Rd} {as : List RdAct} {es : List RdEv} (h : s.exec one as = some (t, es)) : Rd.Run one s as t es := by
  have gen : ∀ (as : List RdAct) (s0 : Rd) (pre : List RdAct) (e0 : List RdEv) (s t : Rd) (es : List RdEv), Rd.Run one s0 pre s e0 → s.exec one as = some (t, es) → Rd.Run one s0 (pre ++ as) t (e0 ++ es) := by
    intro as
    induction as with
    | nil => intro s0 pre e0 s t es hr h; simp only [Rd.exec, Option.some.injEq, Prod.mk.injEq] at h; obtain ⟨rfl, rfl⟩ := h; simpa using hr
    | cons a as ih =>
      intro s0 pre e0 s t es hr h
      simp only [Rd.exec] at h
      cases hs : s.step one a with
      | none => rw [hs] at h; cases h
      | some r =>
        rw [hs] at h
        simp only [Option.map_eq_some_iff] at h
        obtain ⟨⟨t', es'⟩, h1, h2⟩ := h
        simp only [Prod.mk.injEq] at h2
        obtain ⟨rfl, rfl⟩ := h2
        have := ih s0 (pre ++ [a]) (e0 ++ r.2) r.1 t' es' (.snoc a hr hs) h1
        simpa [List.append_assoc] using this
  simpa using gen as s [] [] s t es .nil h

theorem Rp.exec_reach {one : Bool} {s0 s t : Rp} {as : List RpAct} (hr : Rp.Reach one s0 s) (h : s.exec one as = some t) : Rp.Reach one s0 t := by
  induction as generalizing s with
  | nil => simp only [Rp.exec, Option.some.injEq] at h; exact h ▸ hr
  | cons a as ih =>
    simp only [Rp.exec, Option.bind_eq_some_iff] at h
    obtain ⟨u, h1, h2⟩ := h
    exact ih (.step a hr h1) h2

/-- Nobody will offer a message any more. -/
def Rd.Dead (s : Rd) : Prop :=
  s.dispatching = true ∧ s.pc = .idle ∧ s.posted = 0 ∧ s.tm.status = .canceled ∧ ∀ h ∈ s.tm.hs, h.pc = .queued ∨ h.pc = .check ∨ h.pc = .write

theorem Rd.dead_step {one : Bool} {s t : Rd} {a : RdAct} {es : List RdEv} (h : s.Dead) (hs : s.step one a = some (t, es)) : t.Dead ∧ es = [] := by
  obtain ⟨h1, h2, h3, h4, h5⟩ := h
  cases a with
  | arrive => simp only [Rd.step, h1] at hs; grind [Rd.Dead]
  | run => simp [Rd.step, h3] at hs
  | ret ok => simp [Rd.step, h2] at hs
  | park => simp [Rd.step, h2] at hs
  | expire =>
    simp only [Rd.step, RrT.expire, Option.map_map, Option.map_eq_some_iff] at hs
    obtain ⟨q, hq, hs⟩ := hs
    simp only [Function.comp, Prod.mk.injEq] at hs
    obtain ⟨rfl, rfl⟩ := hs
    refine ⟨⟨h1, h2, h3, h4, ?_⟩, rfl⟩
    intro x hx
    simp only [List.mem_append, List.mem_singleton] at hx
    rcases hx with hx | rfl
    · exact h5 x hx
    · exact .inl rfl
  | handler i =>
    simp only [Rd.step] at hs
    split at hs
    · cases hs
    · cases hh : s.tm.handler i false with
      | none => rw [hh] at hs; cases hs
      | some r =>
        obtain ⟨t', b⟩ := r
        rw [hh] at hs
        obtain ⟨x, hx, hc⟩ := RrT.handler_cases hh
        have hm := h5 x (List.mem_of_getElem? hx)
        have hset : ∀ y ∈ s.tm.hs.set i { x with pc := .check }, y.pc = .queued ∨ y.pc = .check ∨ y.pc = .write := by
          intro y hy; rcases RrT.mem_set_or hy with hy | rfl
          · exact h5 y hy
          · exact .inr (.inl rfl)
        have hset' : ∀ y ∈ s.tm.hs.set i { x with pc := .write }, y.pc = .queued ∨ y.pc = .check ∨ y.pc = .write := by
          intro y hy; rcases RrT.mem_set_or hy with hy | rfl
          · exact h5 y hy
          · exact .inr (.inr rfl)
        have her : ∀ y ∈ s.tm.hs.eraseIdx i, y.pc = .queued ∨ y.pc = .check ∨ y.pc = .write := fun y hy => h5 y (RrT.mem_of_erase hy)
        rcases hc with hc | hc | hc | hc | hc | hc | hc | hc | hc <;> grind [Rd.Dead]

theorem Rd.dead_run {one : Bool} {s t : Rd} {as : List RdAct} {es : List RdEv} (h : s.Dead) (hr : Rd.Run one s as t es) : t.Dead ∧ es = [] := by
  induction hr with
  | nil => exact ⟨h, rfl⟩
  | snoc a _ hs ih =>
    obtain ⟨h1, h2⟩ := Rd.dead_step ih.1 hs
    exact ⟨h1, by rw [ih.2, h2]; rfl⟩

/-- One service thread: a message that waits is cared for. -/
structure Rd.Inv (s : Rd) : Prop where
  wait : ∀ q, s.tm.wait = some q → q = s.tm.seq
  old : ∀ h ∈ s.tm.hs, h.ec = true → h.prev ≠ s.tm.seq
  le : ∀ h ∈ s.tm.hs, h.prev ≤ s.tm.seq
  excl : s.pc ≠ .idle → ∀ h ∈ s.tm.hs, h.pc = .queued
  noRestart : ∀ h ∈ s.tm.hs, h.pc ≠ .restart ∧ h.pc ≠ .rearm
  mid : ∀ h ∈ s.tm.hs, h.pc ≠ .queued → (s.posted ≠ 0 ∨ s.dispatching = false) ∨ (h.pc = .check ∧ h.prev ≠ s.tm.seq)
  up : s.pc ≠ .idle → s.dispatching = true
  armed : s.pc = .parkArm → s.tm.status = .started
  cared : s.dispatching = true → s.pc = .idle → s.posted = 0 → s.tm.status = .started ∧ (s.tm.wait.isSome = true ∨ ∃ h ∈ s.tm.hs, h.pc = .queued ∧ h.ec = false)
  busy1 : s.buf ≠ 0 → s.dispatching = true ∨ s.posted ≠ 0

theorem Rd.inv_init : Rd.init.Inv := by
  constructor <;> simp [Rd.init, RrT.init]

theorem Rd.inv_step {s t : Rd} {a : RdAct} {es : List RdEv} (h : s.Inv) (hs : s.step true a = some (t, es)) : t.Inv := by
  obtain ⟨k1, k2, k3, k4, k5, k6, k7, k8, k9, k10⟩ := h
  cases a with
  | arrive =>
    simp only [Rd.step] at hs
    split at hs
    · cases hs
    · rename_i hb
      simp only [Rd.busy, Bool.or_eq_true, true_and, not_or, Bool.not_eq_true, RrT.not_busy] at hb
      simp only [Option.some.injEq, Prod.mk.injEq] at hs
      obtain ⟨rfl, rfl⟩ := hs
      constructor <;> grind
  | run =>
    simp only [Rd.step] at hs
    split at hs
    · cases hs
    · rename_i hb
      simp only [Rd.busy, Bool.or_eq_true, true_and, not_or, Bool.not_eq_true, RrT.not_busy] at hb
      split at hs
      · simp only [Option.some.injEq, Prod.mk.injEq] at hs
        obtain ⟨rfl, rfl⟩ := hs
        constructor <;> grind
      · split at hs <;> (simp only [Option.some.injEq, Prod.mk.injEq] at hs; obtain ⟨rfl, rfl⟩ := hs; constructor <;> grind)
  | ret ok =>
    simp only [Rd.step] at hs
    split at hs
    · cases hs
    · split at hs <;> (simp only [Option.some.injEq, Prod.mk.injEq] at hs; obtain ⟨rfl, rfl⟩ := hs; constructor <;> grind)
  | park =>
    simp only [Rd.step] at hs
    split at hs
    · simp only [Option.some.injEq, Prod.mk.injEq] at hs
      obtain ⟨rfl, rfl⟩ := hs
      constructor <;> grind [RrT.start]
    · simp only [Option.some.injEq, Prod.mk.injEq] at hs
      obtain ⟨rfl, rfl⟩ := hs
      cases hw : s.tm.wait <;> constructor <;> grind [RrT.arm]
    · cases hs
  | expire =>
    simp only [Rd.step, RrT.expire, Option.map_map, Option.map_eq_some_iff] at hs
    obtain ⟨q, hq, hs⟩ := hs
    simp only [Function.comp, Prod.mk.injEq] at hs
    obtain ⟨rfl, rfl⟩ := hs
    have hmem : (⟨false, q, .queued⟩ : RrH) ∈ s.tm.hs ++ [⟨false, q, .queued⟩] := by simp
    constructor <;> grind
  | handler i =>
    simp only [Rd.step] at hs
    split at hs
    · cases hs
    · rename_i hb
      cases hh : s.tm.handler i false with
      | none => rw [hh] at hs; cases hs
      | some r =>
        obtain ⟨t', b⟩ := r
        rw [hh] at hs
        obtain ⟨x, hx, hc⟩ := RrT.handler_cases hh
        have hm := List.mem_of_getElem? hx
        have m1 := fun y z (hy : y ∈ s.tm.hs.set i z) => RrT.mem_set_or hy
        have m2 := fun y (hy : y ∈ s.tm.hs.eraseIdx i) => RrT.mem_of_erase hy
        have m3 := fun y z (hy : y ∈ s.tm.hs) (hne : y ≠ x) => RrT.mem_set_of_ne (y := z) hx hy hne
        have m4 := fun y (hy : y ∈ s.tm.hs) (hne : y ≠ x) => RrT.mem_erase_of_ne hx hy hne
        have hidle : s.pc = .idle := by
          cases hq : decide (x.pc = .queued) with
          | false => exact Classical.byContradiction fun hne => by simpa [k4 hne x hm] using hq
          | true => simp_all [Rd.busy]
        have m5 : (s.dispatching = true ∧ s.posted = 0) → x.pc ≠ .write ∧ x.pc ≠ .called ∧ (x.pc = .check → x.prev ≠ s.tm.seq) := by grind
        rcases hc with hc | hc | hc | hc | hc | hc | hc | hc | hc
        · obtain ⟨c1, c2, c3, rfl, rfl⟩ := hc
          simp only [Option.some.injEq, Prod.mk.injEq] at hs
          obtain ⟨rfl, rfl⟩ := hs
          constructor <;> grind
        · obtain ⟨c1, c2, rfl, rfl⟩ := hc
          simp only [Option.some.injEq, Prod.mk.injEq] at hs
          obtain ⟨rfl, rfl⟩ := hs
          constructor <;> grind
        · grind
        · obtain ⟨c1, c2, rfl, rfl⟩ := hc
          simp only [Option.some.injEq, Prod.mk.injEq] at hs
          obtain ⟨rfl, rfl⟩ := hs
          constructor <;> grind
        · grind
        · grind
        · obtain ⟨c1, c2, rfl, rfl⟩ := hc
          simp only [Option.some.injEq, Prod.mk.injEq] at hs
          obtain ⟨rfl, rfl⟩ := hs
          constructor <;> grind
        · obtain ⟨c1, c2, rfl, rfl⟩ := hc
          simp only [Option.some.injEq, Prod.mk.injEq] at hs
          obtain ⟨rfl, rfl⟩ := hs
          constructor <;> grind
        · obtain ⟨c1, rfl, rfl⟩ := hc
          simp only [Option.some.injEq, Prod.mk.injEq] at hs
          obtain ⟨rfl, rfl⟩ := hs
          constructor <;> grind

theorem Rd.inv_run {s t : Rd} {as : List RdAct} {es : List RdEv} (h : s.Inv) (hr : Rd.Run true s as t es) : t.Inv := by
  induction hr with
  | nil => exact h
  | snoc a _ hs ih => exact Rd.inv_step ih hs

/-- How much a handler has to do still. -/
def RrH.work (h : RrH) : Nat := match h.pc with
  | .queued => 6
  | .called => 3
  | .restart => 9
  | .rearm => 8
  | .check => 2
  | .write => 1

/-- How much the library has to do until a message is offered. -/
def Rd.work (s : Rd) : Nat :=
  (s.tm.hs.map RrH.work).sum + (if s.tm.wait.isSome then 7 else 0) + s.posted + (match s.pc with | .park => 9 | .parkArm => 8 | _ => 0)

theorem RrH.sum_set {l : List RrH} {i : Nat} {x y : RrH} (h : l[i]? = some x) : ((l.set i y).map RrH.work).sum + x.work = (l.map RrH.work).sum + y.work := by
  induction l generalizing i with
  | nil => simp at h
  | cons a l ih =>
    cases i with
    | zero => simp only [List.getElem?_cons_zero, Option.some.injEq] at h; subst h; simp only [List.set_cons_zero, List.map_cons, List.sum_cons]; omega
    | succ i => simp only [List.getElem?_cons_succ] at h; simp only [List.set_cons_succ, List.map_cons, List.sum_cons]; have := ih h; omega

theorem RrH.sum_erase {l : List RrH} {i : Nat} {x : RrH} (h : l[i]? = some x) : ((l.eraseIdx i).map RrH.work).sum + x.work = (l.map RrH.work).sum := by
  induction l generalizing i with
  | nil => simp at h
  | cons a l ih =>
    cases i with
    | zero => simp only [List.getElem?_cons_zero, Option.some.injEq] at h; subst h; simp only [List.eraseIdx_cons_zero, List.map_cons, List.sum_cons]; omega
    | succ i => simp only [List.getElem?_cons_succ] at h; simp only [List.eraseIdx_cons_succ, List.map_cons, List.sum_cons]; have := ih h; omega

/-- What the library does by itself (not: a message comes, on_msg_handle returns). -/
def RdAct.own : RdAct → Bool
  | .arrive => false
  | .ret _ => false
  | _ => true

theorem Rd.work_step {s t : Rd} {a : RdAct} {es : List RdEv} (h : s.Inv) (hd : s.dispatching = true) (hp : s.pc ≠ .handling) (hs : s.step true a = some (t, es)) (hn : RdEv.offered ∉ es) :
    t.dispatching = true ∧ t.pc ≠ .handling ∧ (if a.own then t.work < s.work else t.work ≤ s.work) := by
  cases a with
  | arrive =>
    simp only [Rd.step, hd] at hs
    split at hs
    · cases hs
    · simp only [Option.some.injEq, Prod.mk.injEq] at hs
      obtain ⟨rfl, rfl⟩ := hs
      exact ⟨rfl, hp, by simp [RdAct.own, Rd.work]⟩
  | run =>
    simp only [Rd.step, hd] at hs
    split at hs
    · cases hs
    · simp only [Option.some.injEq, Prod.mk.injEq, if_true] at hs
      obtain ⟨rfl, rfl⟩ := hs
      simp at hn
  | ret ok => simp [Rd.step, hp] at hs
  | park =>
    simp only [Rd.step] at hs
    split at hs
    · rename_i hpc
      simp only [Option.some.injEq, Prod.mk.injEq] at hs
      obtain ⟨rfl, rfl⟩ := hs
      refine ⟨hd, by simp, ?_⟩
      cases hw : s.tm.wait <;> simp [RdAct.own, Rd.work, hpc, RrT.start, hw]
    · rename_i hpc
      simp only [Option.some.injEq, Prod.mk.injEq] at hs
      obtain ⟨rfl, rfl⟩ := hs
      refine ⟨hd, by simp, ?_⟩
      cases hw : s.tm.wait <;> simp [RdAct.own, Rd.work, hpc, RrT.arm, hw, RrH.work] <;> omega
    · cases hs
  | expire =>
    simp only [Rd.step, RrT.expire, Option.map_map, Option.map_eq_some_iff] at hs
    obtain ⟨q, hq, hs⟩ := hs
    simp only [Function.comp, Prod.mk.injEq] at hs
    obtain ⟨rfl, rfl⟩ := hs
    refine ⟨hd, hp, ?_⟩
    simp [RdAct.own, Rd.work, hq, RrH.work]
  | handler i =>
    simp only [Rd.step] at hs
    split at hs
    · cases hs
    · cases hh : s.tm.handler i false with
      | none => rw [hh] at hs; cases hs
      | some r =>
        obtain ⟨t', b⟩ := r
        rw [hh] at hs
        obtain ⟨x, hx, hc⟩ := RrT.handler_cases hh
        have hm := List.mem_of_getElem? hx
        have hnr := h.noRestart x hm
        have e1 := fun y => RrH.sum_set (y := y) hx
        have e2 := RrH.sum_erase hx
        rcases hc with hc | hc | hc | hc | hc | hc | hc | hc | hc
        · obtain ⟨c1, c2, c3, rfl, rfl⟩ := hc
          simp only [Option.some.injEq, Prod.mk.injEq] at hs
          obtain ⟨rfl, rfl⟩ := hs
          refine ⟨hd, hp, ?_⟩
          have := e1 { x with pc := .called }
          simp only [RrH.work, c1] at this
          simp only [RdAct.own, Rd.work, if_true]
          omega
        · obtain ⟨c1, c2, rfl, rfl⟩ := hc
          simp only [Option.some.injEq, Prod.mk.injEq] at hs
          obtain ⟨rfl, rfl⟩ := hs
          refine ⟨hd, hp, ?_⟩
          have := e1 { x with pc := .check }
          simp only [RrH.work, c1] at this
          simp only [RdAct.own, Rd.work, if_true]
          omega
        · exact absurd hc.2.1 (by simp)
        · obtain ⟨c1, c2, rfl, rfl⟩ := hc
          simp only [Option.some.injEq, Prod.mk.injEq] at hs
          obtain ⟨rfl, rfl⟩ := hs
          refine ⟨hd, hp, ?_⟩
          have := e1 { x with pc := .check }
          simp only [RrH.work, c1] at this
          simp only [RdAct.own, Rd.work, if_true]
          omega
        · exact absurd hc.1 hnr.1
        · exact absurd hc.1 hnr.2
        · obtain ⟨c1, c2, rfl, rfl⟩ := hc
          simp only [Option.some.injEq, Prod.mk.injEq] at hs
          obtain ⟨rfl, rfl⟩ := hs
          refine ⟨hd, hp, ?_⟩
          have := e1 { x with pc := .write }
          simp only [RrH.work, c1] at this
          simp only [RdAct.own, Rd.work, if_true]
          omega
        · obtain ⟨c1, c2, rfl, rfl⟩ := hc
          simp only [Option.some.injEq, Prod.mk.injEq] at hs
          obtain ⟨rfl, rfl⟩ := hs
          refine ⟨hd, hp, ?_⟩
          simp only [RrH.work, c1] at e2
          simp only [RdAct.own, Rd.work, if_true]
          omega
        · obtain ⟨c1, rfl, rfl⟩ := hc
          simp only [Option.some.injEq, Prod.mk.injEq] at hs
          obtain ⟨rfl, rfl⟩ := hs
          refine ⟨hd, hp, ?_⟩
          simp only [RrH.work, c1] at e2
          simp only [RdAct.own, Rd.work, if_true]
          omega

/-- A running handler can go on. -/
theorem Rd.handler_can {one : Bool} {s : Rd} {i : Nat} {x : RrH} (hx : s.tm.hs[i]? = some x) (hq : x.pc ≠ .queued ∨ s.busy = false) : (s.step one (.handler i)).isSome = true := by
  have hn : ¬ (one = true ∧ s.busy = true ∧ (s.tm.hs[i]?.map (·.pc)) = some .queued) := by
    rw [hx]; simp only [Option.map_some, Option.some.injEq]; grind
  simp only [Rd.step, if_neg hn]
  have : (s.tm.handler i false).isSome = true := by
    simp only [RrT.handler, hx]
    cases x.pc <;> simp only <;> (try split) <;> rfl
  obtain ⟨⟨t, b⟩, hr⟩ := Option.isSome_iff_exists.mp this
  rw [hr]
  cases b <;> rfl

/-- There is always something the library can do about a waiting message. -/
theorem Rd.can {s : Rd} (h : s.Inv) (hd : s.dispatching = true) (hp : s.pc ≠ .handling) : ∃ a, a.own = true ∧ (s.step true a).isSome = true := by
  cases hpc : s.pc with
  | handling => exact absurd hpc hp
  | park => exact ⟨.park, rfl, by simp [Rd.step, hpc]⟩
  | parkArm => exact ⟨.park, rfl, by simp [Rd.step, hpc]⟩
  | idle =>
    cases hb : s.tm.busy with
    | true =>
      simp only [RrT.busy, List.any_eq_true] at hb
      obtain ⟨x, hx, hq⟩ := hb
      obtain ⟨i, hi⟩ := List.getElem?_of_mem hx
      exact ⟨.handler i, rfl, Rd.handler_can hi (.inl (by simpa using hq))⟩
    | false =>
      have hbusy : s.busy = false := by simp [Rd.busy, hpc, hb]
      by_cases h0 : s.posted = 0
      · obtain ⟨_, hw | ⟨x, hx, _⟩⟩ := h.cared hd hpc h0
        · obtain ⟨q, hq⟩ := Option.isSome_iff_exists.mp hw
          exact ⟨.expire, rfl, by simp [Rd.step, RrT.expire, hq]⟩
        · obtain ⟨i, hi⟩ := List.getElem?_of_mem hx
          exact ⟨.handler i, rfl, Rd.handler_can hi (.inr hbusy)⟩
      · exact ⟨.run, rfl, by simp [Rd.step, h0, hpc, hbusy, hd]⟩

theorem Rd.work_run {s t : Rd} {as : List RdAct} {es : List RdEv} (h : s.Inv) (hd : s.dispatching = true) (hp : s.pc ≠ .handling) (hr : Rd.Run true s as t es) (hn : RdEv.offered ∉ es) :
    t.dispatching = true ∧ t.pc ≠ .handling ∧ as.countP RdAct.own + t.work ≤ s.work := by
  induction hr with
  | nil => exact ⟨hd, hp, by simp⟩
  | @snoc as u t es es' a hr hs ih =>
    simp only [List.mem_append, not_or] at hn
    obtain ⟨h1, h2, h3⟩ := ih hn.1
    obtain ⟨g1, g2, g3⟩ := Rd.work_step (Rd.inv_run h hr) h1 h2 hs hn.2
    refine ⟨g1, g2, ?_⟩
    rw [List.countP_append]
    cases ha : a.own <;> simp [ha] at g3 ⊢ <;> omega

end StAsio
