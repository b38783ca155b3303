import Verif.Lemmas.RetryRace
/-!
Invariants of a socket that stopped receiving and waits for its own timer.
-/
set_option autoImplicit false
namespace StAsio

/-- The handler may still call, or have called, the call back that resumes receiving. -/
def RrH.live (h : RrH) : Prop := h.pc = .queued ∨ h.pc = .called ∨ h.pc = .restart ∨ h.pc = .rearm

/-- At most one element of the list is live. -/
def RrH.Solo (l : List RrH) : Prop := ∀ (i j : Nat) (x y : RrH), l[i]? = some x → l[j]? = some y → x.live → y.live → i = j

theorem RrH.Solo.set {l : List RrH} {i : Nat} {h y : RrH} (hl : RrH.Solo l) (hi : l[i]? = some h) (hy : y.live → h.live) : RrH.Solo (l.set i y) := by
  have hlt : i < l.length := (List.getElem?_eq_some_iff.mp hi).1
  have key : ∀ (a : Nat) (u : RrH), (l.set i y)[a]? = some u → u.live → ∃ v, l[a]? = some v ∧ v.live := by
    intro a u ha hu
    by_cases e : i = a
    · subst e
      rw [List.getElem?_set_self hlt] at ha
      cases ha
      exact ⟨h, hi, hy hu⟩
    · rw [List.getElem?_set_ne e] at ha
      exact ⟨u, ha, hu⟩
  intro a b u v ha hb hu hv
  obtain ⟨u', ha', hu'⟩ := key a u ha hu
  obtain ⟨v', hb', hv'⟩ := key b v hb hv
  exact hl a b u' v' ha' hb' hu' hv'

theorem RrH.Solo.erase {l : List RrH} (i : Nat) (hl : RrH.Solo l) : RrH.Solo (l.eraseIdx i) := by
  intro a b u v ha hb hu hv
  rw [List.getElem?_eraseIdx] at ha hb
  split at ha <;> split at hb
  · exact hl _ _ _ _ ha hb hu hv
  · have := hl _ _ _ _ ha hb hu hv; omega
  · have := hl _ _ _ _ ha hb hu hv; omega
  · have := hl _ _ _ _ ha hb hu hv; omega

theorem RrH.Solo.others {l : List RrH} {i : Nat} {h : RrH} (hl : RrH.Solo l) (hi : l[i]? = some h) (hh : h.live) : (∀ x ∈ l.eraseIdx i, ¬ x.live) ∧ (∀ y x, x ∈ l.set i y → x = y ∨ ¬ x.live) := by
  constructor
  · intro x hx hv
    obtain ⟨j, hne, hj⟩ := List.mem_eraseIdx_iff_getElem?.mp hx
    exact hne (hl _ _ _ _ hj hi hv hh)
  · intro y x hx
    obtain ⟨j, hj⟩ := List.getElem?_of_mem hx
    by_cases e : i = j
    · subst e
      have hlt : i < l.length := (List.getElem?_eq_some_iff.mp hi).1
      rw [List.getElem?_set_self hlt] at hj
      exact .inl (Option.some.inj hj).symm
    · rw [List.getElem?_set_ne e] at hj
      exact .inr fun hv => e (hl _ _ _ _ hi hj hh hv)

theorem RrH.Solo.none {l : List RrH} (h : ∀ x ∈ l, ¬ x.live) : RrH.Solo l := fun _ _ x _ hi _ hx _ => absurd hx (h x (List.mem_of_getElem? hi))

theorem RrH.Solo.snoc {l : List RrH} (h : ∀ x ∈ l, ¬ x.live) (z : RrH) : RrH.Solo (l ++ [z]) := by
  have key : ∀ (a : Nat) (u : RrH), (l ++ [z])[a]? = some u → u.live → a = l.length := by
    intro a u ha hu
    rw [List.getElem?_append] at ha
    split at ha
    · exact absurd hu (h u (List.mem_of_getElem? ha))
    · rename_i hlt
      have : a - l.length = 0 := by
        cases e : a - l.length with
        | zero => rfl
        | succ n => rw [e] at ha; simp at ha
      omega
  intro a b u v ha hb hu hv
  rw [key a u ha hu, key b v hb hv]

/-- One timer, one wait: holds with any number of threads. -/
structure Rp.Uni (s : Rp) : Prop where
  solo : RrH.Solo s.tm.hs
  live : ∀ x ∈ s.tm.hs, x.live → s.pc = .paused ∧ s.tm.wait = none ∧ x.ec = false
  wait : s.tm.wait.isSome = true → s.pc = .paused
  once : s.twice = false

theorem Rp.handler_some {one : Bool} {s t : Rp} {i : Nat} {avail : Bool} (hs : s.step one (.handler i avail) = some t) :
    ¬ (one = true ∧ s.busy = true ∧ (s.tm.hs[i]?.map (·.pc)) = some .queued) ∧
    ((∃ t' b, s.tm.hs[i]?.map (·.pc) = some .called ∧ avail = true ∧ s.tm.handler i false = some (t', b) ∧ t = { s with tm := t', pc := .reading, twice := s.twice || s.pc != .paused }) ∨
    (∃ t' b, ¬ (s.tm.hs[i]?.map (·.pc) = some .called ∧ avail = true) ∧ s.tm.handler i true = some (t', b) ∧ t = { s with tm := t' })) := by
  simp only [Rp.step] at hs
  split at hs
  · cases hs
  · rename_i h0
    refine ⟨h0, ?_⟩
    split at hs
    · rename_i h1
      simp only [Option.map_eq_some_iff] at hs
      obtain ⟨⟨t', b⟩, h2, h3⟩ := hs
      exact .inl ⟨t', b, h1.1, h1.2, h2, h3.symm⟩
    · rename_i h1
      simp only [Option.map_eq_some_iff] at hs
      obtain ⟨⟨t', b⟩, h2, h3⟩ := hs
      exact .inr ⟨t', b, h1, h2, h3.symm⟩

theorem Rp.uni_step {one : Bool} {s t : Rp} {a : RpAct} (h : s.Uni) (hs : s.step one a = some t) : t.Uni := by
  have k1 := h.solo
  have k2 := h.live
  have k3 := h.wait
  have k4 := h.once
  cases a with
  | read => simp only [Rp.step] at hs; split at hs <;> grind [Rp.Uni]
  | check avail => simp only [Rp.step] at hs; split at hs <;> grind [Rp.Uni]
  | park =>
    simp only [Rp.step] at hs
    split at hs
    · simp only [Option.some.injEq] at hs; subst hs
      exact ⟨k1, by grind [RrT.start], by grind [RrT.start], k4⟩
    · simp only [Option.some.injEq] at hs; subst hs
      have hw : s.tm.wait = none := by cases h : s.tm.wait <;> grind
      have hl : ∀ x ∈ s.tm.hs, ¬ x.live := by grind
      have e : s.tm.arm.hs = s.tm.hs := by simp [RrT.arm, hw]
      exact ⟨by rw [show ({ s with tm := s.tm.arm, pc := .paused } : Rp).tm.hs = s.tm.hs from e]; exact k1, by rw [show ({ s with tm := s.tm.arm, pc := .paused } : Rp).tm.hs = s.tm.hs from e]; exact fun x hx hv => absurd hv (hl x hx), fun _ => rfl, k4⟩
    · cases hs
  | expire =>
    simp only [Rp.step, RrT.expire, Option.map_map, Option.map_eq_some_iff] at hs
    obtain ⟨q, hq, hs⟩ := hs
    simp only [Function.comp] at hs
    subst hs
    have hl : ∀ x ∈ s.tm.hs, ¬ x.live := by
      intro x hx hv; have := k2 x hx hv; grind
    refine ⟨.snoc hl _, ?_, by simp, k4⟩
    intro x hx hp
    simp only [List.mem_append, List.mem_singleton] at hx
    rcases hx with hx | rfl
    · exact absurd hp (hl x hx)
    · exact ⟨k3 (by rw [hq]; rfl), rfl, rfl⟩
  | handler i avail =>
    obtain ⟨_, ⟨t', b, c1, c2, c3, rfl⟩ | ⟨t', b, c1, c3, rfl⟩⟩ := Rp.handler_some hs
    · obtain ⟨x, hx, hc⟩ := RrT.handler_cases c3
      have hm := List.mem_of_getElem? hx
      have hpc : x.pc = .called := by rw [hx] at c1; simpa using c1
      have hlv : x.live := .inr (.inl hpc)
      obtain ⟨o1, o2⟩ := k1.others hx hlv
      obtain ⟨l1, l2, l3⟩ := k2 x hm hlv
      have hnl : ¬ ({ x with pc := .check } : RrH).live := by simp [RrH.live]
      rcases hc with hc | hc | hc | hc | hc | hc | hc | hc | hc
      case inr.inr.inr.inl =>
        obtain ⟨_, _, rfl, rfl⟩ := hc
        refine ⟨k1.set hx (fun hv => absurd hv hnl), ?_, by simp [l2], by simp [k4, l1]⟩
        intro y hy hv
        rcases o2 _ y hy with rfl | hn
        · exact absurd hv hnl
        · exact absurd hv hn
      all_goals (exfalso; grind)
    · obtain ⟨x, hx, hc⟩ := RrT.handler_cases c3
      have hm := List.mem_of_getElem? hx
      have hse : ∀ y : RrH, (y.live → x.live ∧ y.ec = x.ec) → ∀ z ∈ s.tm.hs.set i y, z.live → s.pc = .paused ∧ s.tm.wait = none ∧ z.ec = false := by
        intro y hy z hz hv
        rcases RrT.mem_set_or hz with hz | rfl
        · exact k2 z hz hv
        · obtain ⟨hy1, hy2⟩ := hy hv
          obtain ⟨l1, l2, l3⟩ := k2 x hm hy1
          exact ⟨l1, l2, by rw [hy2]; exact l3⟩
      rcases hc with hc | hc | hc | hc | hc | hc | hc | hc | hc
      · obtain ⟨p1, _, _, rfl, rfl⟩ := hc
        exact ⟨k1.set hx (fun _ => .inl p1), hse _ (fun _ => ⟨.inl p1, rfl⟩), k3, k4⟩
      · obtain ⟨p1, _, rfl, rfl⟩ := hc
        exact ⟨k1.set hx (fun _ => .inl p1), hse _ (fun _ => ⟨.inl p1, rfl⟩), k3, k4⟩
      · obtain ⟨p1, _, _, rfl, rfl⟩ := hc
        exact ⟨k1.set hx (fun _ => .inr (.inl p1)), hse _ (fun _ => ⟨.inr (.inl p1), rfl⟩), k3, k4⟩
      · obtain ⟨p1, _, rfl, rfl⟩ := hc
        exact ⟨k1.set hx (fun _ => .inr (.inl p1)), hse _ (fun _ => ⟨.inr (.inl p1), rfl⟩), k3, k4⟩
      · obtain ⟨p1, rfl, rfl⟩ := hc
        exact ⟨k1.set hx (fun _ => .inr (.inr (.inl p1))), hse _ (fun _ => ⟨.inr (.inr (.inl p1)), rfl⟩), k3, k4⟩
      · obtain ⟨p1, rfl, rfl⟩ := hc
        have hlv : x.live := .inr (.inr (.inr p1))
        obtain ⟨o1, _⟩ := k1.others hx hlv
        obtain ⟨l1, l2, l3⟩ := k2 x hm hlv
        refine ⟨?_, ?_, fun _ => l1, k4⟩
        · simp only [RrT.arm, l2]; exact k1.erase i
        · simp only [RrT.arm, l2]; exact fun z hz hv => absurd hv (o1 z hz)
      · obtain ⟨p1, _, rfl, rfl⟩ := hc
        exact ⟨k1.set hx (fun hv => by simp [RrH.live] at hv), hse _ (fun hv => by simp [RrH.live] at hv), k3, k4⟩
      · obtain ⟨p1, _, rfl, rfl⟩ := hc
        exact ⟨k1.erase i, fun z hz hv => k2 z (RrT.mem_of_erase hz) hv, k3, k4⟩
      · obtain ⟨p1, rfl, rfl⟩ := hc
        exact ⟨k1.erase i, fun z hz hv => k2 z (RrT.mem_of_erase hz) hv, k3, k4⟩

theorem Rp.uni_init : Rp.init.Uni := ⟨.none (by simp [Rp.init, RrT.init]), by simp [Rp.init, RrT.init], by simp [Rp.init, RrT.init], rfl⟩

theorem Rp.uni_reach {one : Bool} {s : Rp} (h : Rp.Reach one Rp.init s) : s.Uni := by
  induction h with
  | refl => exact Rp.uni_init
  | step a _ hs ih => exact Rp.uni_step ih hs

/-- Receiving is paused and the timer that should resume it is marked as cancelled. -/
structure Rp.Dead (s : Rp) : Prop where
  paused : s.pc = .paused
  canceled : s.tm.status = .canceled
  hs : ∀ h ∈ s.tm.hs, h.pc = .queued ∨ h.pc = .check ∨ h.pc = .write

theorem Rp.dead_step {one : Bool} {s t : Rp} {a : RpAct} (h : s.Dead) (hs : s.step one a = some t) : t.Dead := by
  obtain ⟨h1, h2, h3⟩ := h
  cases a with
  | read => simp [Rp.step, h1] at hs
  | check avail => simp [Rp.step, h1] at hs
  | park => simp [Rp.step, h1] at hs
  | expire =>
    simp only [Rp.step, RrT.expire, Option.map_map, Option.map_eq_some_iff] at hs
    obtain ⟨q, hq, hs⟩ := hs
    simp only [Function.comp] at hs
    subst hs
    refine ⟨h1, h2, ?_⟩
    intro x hx
    simp only [List.mem_append, List.mem_singleton] at hx
    rcases hx with hx | rfl
    · exact h3 x hx
    · exact .inl rfl
  | handler i avail =>
    obtain ⟨_, ⟨t', b, c1, c2, c3, rfl⟩ | ⟨t', b, c1, c3, rfl⟩⟩ := Rp.handler_some hs
    · exfalso
      obtain ⟨x, hx, hc⟩ := RrT.handler_cases c3
      have := h3 x (List.mem_of_getElem? hx)
      rw [hx] at c1
      simp only [Option.map_some, Option.some.injEq] at c1
      grind
    · obtain ⟨x, hx, hc⟩ := RrT.handler_cases c3
      have hm := h3 x (List.mem_of_getElem? hx)
      have hset : ∀ y ∈ s.tm.hs.set i { x with pc := .check }, y.pc = .queued ∨ y.pc = .check ∨ y.pc = .write := by
        intro y hy; rcases RrT.mem_set_or hy with hy | rfl
        · exact h3 y hy
        · exact .inr (.inl rfl)
      have hset' : ∀ y ∈ s.tm.hs.set i { x with pc := .write }, y.pc = .queued ∨ y.pc = .check ∨ y.pc = .write := by
        intro y hy; rcases RrT.mem_set_or hy with hy | rfl
        · exact h3 y hy
        · exact .inr (.inr rfl)
      have her : ∀ y ∈ s.tm.hs.eraseIdx i, y.pc = .queued ∨ y.pc = .check ∨ y.pc = .write := fun y hy => h3 y (RrT.mem_of_erase hy)
      rcases hc with hc | hc | hc | hc | hc | hc | hc | hc | hc <;> grind [Rp.Dead]

theorem Rp.dead_reach {one : Bool} {s t : Rp} (h : s.Dead) (hr : Rp.Reach one s t) : t.Dead := by
  induction hr with
  | refl => exact h
  | step a _ hs ih => exact Rp.dead_step ih hs

/-- What holds when the service has one thread. -/
structure Rp.Inv (s : Rp) : Prop where
  uni : s.Uni
  mid : ∀ x ∈ s.tm.hs, x.pc = .check ∨ x.pc = .write → s.pc ≠ .paused
  excl : s.midway = true → ∀ x ∈ s.tm.hs, x.pc = .queued
  armed : s.pc = .parkArm → s.tm.status = .started
  cared : s.pc = .paused → s.tm.status = .started ∧ (s.tm.wait.isSome = true ∨ ∃ x ∈ s.tm.hs, x.live)

theorem Rp.inv_init : Rp.init.Inv := ⟨Rp.uni_init, by simp [Rp.init, RrT.init], by simp [Rp.init, RrT.init], by simp [Rp.init], by simp [Rp.init]⟩

theorem RrH.live_or (x : RrH) : x.live ∨ x.pc = .check ∨ x.pc = .write := by
  cases h : x.pc <;> simp [RrH.live, h]

theorem Rp.inv_step {s t : Rp} {a : RpAct} (h : s.Inv) (hs : s.step true a = some t) : t.Inv := by
  have hu := Rp.uni_step h.uni hs
  have k1 := h.uni.solo
  have k2 := h.uni.live
  have k3 := h.uni.wait
  have m := h.mid
  have e := h.excl
  have r := h.armed
  have c := h.cared
  cases a with
  | read =>
    simp only [Rp.step] at hs
    split at hs
    · cases hs
    · rename_i hn
      simp only [Option.some.injEq] at hs; subst hs
      have hb : s.tm.busy = false := by
        cases hb : s.tm.busy with
        | false => rfl
        | true => exact absurd (.inr ⟨trivial, by simp [Rp.busy, hb]⟩) hn
      refine ⟨hu, by simp, fun _ x hx => ?_, by simp, by simp⟩
      exact RrT.not_busy.mp hb x hx
  | check avail =>
    simp only [Rp.step] at hs
    split at hs
    · cases hs
    · rename_i hn
      simp only [Option.some.injEq] at hs; subst hs
      have hm : s.midway = true := by simp only [ne_eq, Decidable.not_not] at hn; simp [Rp.midway, hn]
      refine ⟨hu, fun x hx _ => by cases avail <;> simp, fun _ => e hm, by cases avail <;> simp, by cases avail <;> simp⟩
  | park =>
    simp only [Rp.step] at hs
    split at hs
    · rename_i hp
      simp only [Option.some.injEq] at hs; subst hs
      have hm : s.midway = true := by simp [Rp.midway, hp]
      exact ⟨hu, by simp, fun _ => e hm, fun _ => rfl, by simp⟩
    · rename_i hp
      simp only [Option.some.injEq] at hs; subst hs
      have hm : s.midway = true := by simp [Rp.midway, hp]
      have hw : s.tm.wait = none := by cases h : s.tm.wait <;> grind
      have e2 : s.tm.arm.hs = s.tm.hs := by simp [RrT.arm, hw]
      refine ⟨hu, ?_, by simp [Rp.midway], by simp, fun _ => ⟨r hp, .inl rfl⟩⟩
      intro x hx hx2
      have := e hm x (by rw [← e2]; exact hx)
      rw [this] at hx2
      rcases hx2 with hx2 | hx2 <;> cases hx2
    · cases hs
  | expire =>
    simp only [Rp.step, RrT.expire, Option.map_map, Option.map_eq_some_iff] at hs
    obtain ⟨q, hq, hs⟩ := hs
    simp only [Function.comp] at hs
    subst hs
    have hp : s.pc = .paused := k3 (by rw [hq]; rfl)
    refine ⟨hu, ?_, by simp [Rp.midway, hp], by simp [hp], fun _ => ⟨(c hp).1, .inr ⟨_, List.mem_append_right _ (List.mem_singleton.mpr rfl), .inl rfl⟩⟩⟩
    intro x hx
    simp only [List.mem_append, List.mem_singleton] at hx
    rcases hx with hx | rfl
    · exact m x hx
    · intro hh; rcases hh with hh | hh <;> cases hh
  | handler i avail =>
    obtain ⟨hb, ⟨t', b, c1, c2, c3, rfl⟩ | ⟨t', b, c1, c3, rfl⟩⟩ := Rp.handler_some hs
    · exact ⟨hu, by simp, by simp [Rp.midway], by simp, by simp⟩
    · obtain ⟨x, hx, hc⟩ := RrT.handler_cases c3
      have hm := List.mem_of_getElem? hx
      have hlt : i < s.tm.hs.length := (List.getElem?_eq_some_iff.mp hx).1
      have hnm : s.midway = false := by
        cases hmw : s.midway with
        | false => rfl
        | true =>
          refine absurd ⟨rfl, by simp [Rp.busy, hmw], ?_⟩ hb
          rw [hx]
          simp only [Option.map_some, Option.some.injEq]
          exact e hmw x hm
      have hself : ∀ y : RrH, y ∈ s.tm.hs.set i y := fun y => List.mem_of_getElem? (List.getElem?_set_self hlt)
      have hpa : s.pc ≠ .parkArm := by intro hp; simp [Rp.midway, hp] at hnm
      have hmid : ∀ y : RrH, (y.pc = .check ∨ y.pc = .write → s.pc ≠ .paused) → ∀ z ∈ s.tm.hs.set i y, z.pc = .check ∨ z.pc = .write → s.pc ≠ .paused := by
        intro y hy z hz
        rcases RrT.mem_set_or hz with hz | rfl
        · exact m z hz
        · exact hy
      have hcare : x.live → s.pc = .paused ∧ s.tm.wait = none ∧ x.ec = false ∧ s.tm.status = .started := fun hv =>
        ⟨(k2 x hm hv).1, (k2 x hm hv).2.1, (k2 x hm hv).2.2, (c (k2 x hm hv).1).1⟩
      have hx1 : ∀ hs', ({ s with tm := { s.tm with hs := hs' } } : Rp).midway = s.midway := fun _ => rfl
      rcases hc with hc | hc | hc | hc | hc | hc | hc | hc | hc
      · obtain ⟨p1, p2, _, rfl, rfl⟩ := hc
        refine ⟨hu, hmid _ (by simp), fun h => ?_, fun h => absurd h hpa, fun _ => ⟨p2, .inr ⟨_, hself _, .inr (.inl rfl)⟩⟩⟩
        exact absurd (hnm.symm.trans h) (by simp)
      · obtain ⟨p1, p2, rfl, rfl⟩ := hc
        obtain ⟨_, _, q3, q4⟩ := hcare (.inl p1)
        exact absurd ⟨q4, q3⟩ p2
      · obtain ⟨p1, _, p2, rfl, rfl⟩ := hc
        refine ⟨hu, hmid _ (by simp), fun h => ?_, fun h => absurd h hpa, fun _ => ⟨p2, .inr ⟨_, hself _, .inr (.inr (.inl rfl))⟩⟩⟩
        exact absurd (hnm.symm.trans h) (by simp)
      · obtain ⟨p1, p2, rfl, rfl⟩ := hc
        obtain ⟨_, _, q3, q4⟩ := hcare (.inr (.inl p1))
        exact absurd ⟨rfl, q4⟩ p2
      · obtain ⟨p1, rfl, rfl⟩ := hc
        refine ⟨hu, hmid _ (by simp), fun h => ?_, fun h => absurd h hpa, fun _ => ⟨rfl, .inr ⟨_, hself _, .inr (.inr (.inr rfl))⟩⟩⟩
        exact absurd (hnm.symm.trans h) (by simp)
      · obtain ⟨p1, rfl, rfl⟩ := hc
        obtain ⟨q1, q2, q3, q4⟩ := hcare (.inr (.inr (.inr p1)))
        refine ⟨hu, ?_, fun h => ?_, fun h => absurd h hpa, fun _ => ⟨q4, .inl rfl⟩⟩
        · simp only [RrT.arm, q2]
          exact fun z hz => m z (RrT.mem_of_erase hz)
        · exact absurd (hnm.symm.trans h) (by simp)
      · obtain ⟨p1, _, rfl, rfl⟩ := hc
        have hnp := m x hm (.inl p1)
        exact ⟨hu, hmid _ (fun _ => hnp), fun h => absurd (hnm.symm.trans h) (by simp), fun h => absurd h hpa, fun h => absurd h hnp⟩
      · obtain ⟨p1, _, rfl, rfl⟩ := hc
        have hnp := m x hm (.inl p1)
        exact ⟨hu, fun z hz => m z (RrT.mem_of_erase hz), fun h => absurd (hnm.symm.trans h) (by simp), fun h => absurd h hpa, fun h => absurd h hnp⟩
      · obtain ⟨p1, rfl, rfl⟩ := hc
        have hnp := m x hm (.inr p1)
        exact ⟨hu, fun z hz => m z (RrT.mem_of_erase hz), fun h => absurd (hnm.symm.trans h) (by simp), fun h => absurd h hpa, fun h => absurd h hnp⟩

theorem Rp.inv_reach {s t : Rp} (h : s.Inv) (hr : Rp.Reach true s t) : t.Inv := by
  induction hr with
  | refl => exact h
  | step a _ hs ih => exact Rp.inv_step ih hs

/-- While receiving is paused there is either a wait or one handler. -/
theorem Rp.Inv.shape {s : Rp} (h : s.Inv) (hp : s.pc = .paused) :
    s.tm.status = .started ∧ ((∃ q, s.tm.wait = some q ∧ s.tm.hs = []) ∨ (∃ x, s.tm.hs = [x] ∧ s.tm.wait = none ∧ x.ec = false ∧ x.live)) := by
  have hl : ∀ x ∈ s.tm.hs, x.live := fun x hx => (RrH.live_or x).elim id (fun hh => absurd hp (h.mid x hx hh))
  obtain ⟨c1, c2⟩ := h.cared hp
  refine ⟨c1, ?_⟩
  cases hh : s.tm.hs with
  | nil =>
    left
    rcases c2 with hw | ⟨x, hx, _⟩
    · obtain ⟨q, hq⟩ := Option.isSome_iff_exists.mp hw
      exact ⟨q, hq, rfl⟩
    · rw [hh] at hx; cases hx
  | cons x l =>
    right
    have hx : x ∈ s.tm.hs := by rw [hh]; exact List.mem_cons_self
    cases l with
    | nil => exact ⟨x, rfl, (h.uni.live x hx (hl x hx)).2.1, (h.uni.live x hx (hl x hx)).2.2, hl x hx⟩
    | cons y l =>
      have hy : y ∈ s.tm.hs := by rw [hh]; simp
      have := h.uni.solo 0 1 x y (by rw [hh]; rfl) (by rw [hh]; rfl) (hl x hx) (hl y hy)
      cases this

/-- How many steps of the library there are at most until check_receiving is done. -/
def Rp.left (s : Rp) : Nat := match s.tm.hs with
  | [] => 5
  | x :: _ => match x.pc with
    | .queued => 4
    | .called => 3
    | .restart => 7
    | .rearm => 6
    | _ => 0

theorem Rp.left_le (s : Rp) : s.left ≤ 7 := by
  simp only [Rp.left]; split
  · decide
  · split <;> decide

/-- In this action the call back does not find the buffer full. -/
def RpAct.roomy : RpAct → Bool
  | .check avail => avail
  | .handler _ avail => avail
  | _ => true

theorem Rp.left_step {s t : Rp} {a : RpAct} (h : s.Inv) (hp : s.pc = .paused) (ha : a.roomy = true) (hs : s.step true a = some t) : t.pc = .reading ∨ (t.pc = .paused ∧ t.left < s.left) := by
  obtain ⟨hst, hsh⟩ := h.shape hp
  cases a with
  | read => simp [Rp.step, hp] at hs
  | check avail => simp [Rp.step, hp] at hs
  | park => simp [Rp.step, hp] at hs
  | expire =>
    rcases hsh with ⟨q, hq, hh⟩ | ⟨x, hh, hw, _⟩
    · simp only [Rp.step, RrT.expire, hq, Option.map_some, Option.some.injEq] at hs
      subst hs
      exact .inr ⟨hp, by simp [Rp.left, hh]⟩
    · simp [Rp.step, RrT.expire, hw] at hs
  | handler i avail =>
    simp only [RpAct.roomy] at ha
    subst ha
    rcases hsh with ⟨q, hq, hh⟩ | ⟨x, hh, hw, hec, hv⟩
    · obtain ⟨_, ⟨t', b, _, _, c3, _⟩ | ⟨t', b, _, c3, _⟩⟩ := Rp.handler_some hs <;> simp [RrT.handler, hh] at c3
    · obtain ⟨hb, ⟨t', b, c1, c2, c3, rfl⟩ | ⟨t', b, c1, c3, rfl⟩⟩ := Rp.handler_some hs
      · exact .inl rfl
      · right
        refine ⟨hp, ?_⟩
        cases i with
        | succ n => simp [RrT.handler, hh] at c3
        | zero =>
          obtain ⟨x', hx', hc⟩ := RrT.handler_cases c3
          rw [hh] at hx'
          simp only [List.getElem?_cons_zero, Option.some.injEq] at hx'
          subst hx'
          rw [hh] at c1
          have hnc : x.pc ≠ .called := fun e => c1 ⟨by simp [e], rfl⟩
          rcases hc with hc | hc | hc | hc | hc | hc | hc | hc | hc
          · obtain ⟨p1, _, _, rfl, rfl⟩ := hc; simp [Rp.left, hh, p1]
          · exact absurd ⟨hst, hec⟩ hc.2.1
          · exact absurd hc.1 hnc
          · exact absurd hc.1 hnc
          · obtain ⟨p1, rfl, rfl⟩ := hc; simp [Rp.left, hh, p1]
          · obtain ⟨p1, rfl, rfl⟩ := hc; simp [Rp.left, hh, p1, RrT.arm, hw]
          · exact absurd hp (h.mid x (by rw [hh]; simp) (.inl hc.1))
          · exact absurd hp (h.mid x (by rw [hh]; simp) (.inl hc.1))
          · exact absurd hp (h.mid x (by rw [hh]; simp) (.inr hc.1))

theorem Rp.left_exec {s t : Rp} {as : List RpAct} (h : s.Inv) (hp : s.pc = .paused) (ha : ∀ a ∈ as, a.roomy = true) (he : s.exec true as = some t) (hn : s.left < as.length) :
    ∃ pre u, pre <+: as ∧ s.exec true pre = some u ∧ u.pc = .reading := by
  induction as generalizing s with
  | nil => simp at hn
  | cons a as ih =>
    simp only [Rp.exec, Option.bind_eq_some_iff] at he
    obtain ⟨u, hu, he⟩ := he
    rcases Rp.left_step h hp (ha a List.mem_cons_self) hu with hr | ⟨h1, h2⟩
    · exact ⟨[a], u, ⟨as, rfl⟩, by simp [Rp.exec, hu], hr⟩
    · simp only [List.length_cons] at hn
      obtain ⟨pre, v, hpre, hv, hvr⟩ := ih (Rp.inv_step h hu) h1 (fun b hb => ha b (List.mem_cons_of_mem _ hb)) he (by omega)
      exact ⟨a :: pre, v, List.cons_prefix_cons.mpr ⟨rfl, hpre⟩, by simp [Rp.exec, hu, hv], hvr⟩

/-- Whatever check_receiving finds, there is something to do while receiving is paused. -/
theorem Rp.can {s : Rp} (avail : Bool) (h : s.Inv) (hp : s.pc = .paused) : (s.step true .expire).isSome = true ∨ (s.step true (.handler 0 avail)).isSome = true := by
  obtain ⟨hst, ⟨q, hq, hh⟩ | ⟨x, hh, hw, hec, hv⟩⟩ := h.shape hp
  · left; simp [Rp.step, RrT.expire, hq]
  · right
    have hb : ¬ (true = true ∧ s.busy = true ∧ (s.tm.hs[0]?.map (·.pc)) = some .queued) := by
      rintro ⟨_, h1, h2⟩
      simp only [hh, List.getElem?_cons_zero, Option.map_some, Option.some.injEq] at h2
      simp [Rp.busy, Rp.midway, hp, RrT.busy, hh, h2] at h1
    simp only [Rp.step, if_neg hb]
    have hk : ∀ b, (s.tm.handler 0 b).isSome = true := by
      intro b
      simp only [RrT.handler, hh, List.getElem?_cons_zero]
      cases x.pc <;> simp only <;> (try split) <;> rfl
    split
    · rename_i hc; exact absurd ⟨rfl, hc.2⟩ hb
    · split <;> simp [hk]

end StAsio
