import Verif.Props.C102_ScopeLock
import Verif.Lemmas.Fair
/-!
# C102 for ever: who gets through

start() always returns if do_start() does. close() returns if the other threads do not go on calling start() and close() for ever; if they do, it may wait for ever.
-/
set_option autoImplicit false
namespace StAsio

/-- Thread `i` goes on (with a call it has made). -/
def ScAct.goes (i : Nat) : ScAct → Bool
  | .go j => j == i
  | .started j _ => j == i
  | .refuse j => j == i
  | _ => false

/-- A thread calls start() or close(). -/
def ScAct.calls : ScAct → Bool
  | .start _ => true
  | .close _ => true
  | _ => false

/-- The thread does not have to wait any more: it is in start(), or it is in close() and has the lock or had it. -/
def ScPc.sure (p : ScPc) (o : LkObj) : Bool := match p with
  | .idle => false
  | .cCtor => o.owns
  | .cLock => o.owns
  | .cTest => o.owns
  | .cSleep => false
  | _ => true

/-- How far it is to the end. -/
def ScPc.rank (p : ScPc) (o : LkObj) : Nat := match p with
  | .idle => 0
  | .sOut => 20
  | .sCtor => match o.ph with | .locking => 15 | .got _ => 14 | _ => 13
  | .cCtor => match o.ph with | .locking => 15 | .got _ => 14 | _ => 13
  | .cLock => match o.ph with | .locking => 15 | .got _ => 14 | _ => 13
  | .sTest => 12
  | .cTest => 12
  | .sBody => 11
  | .cRead => 11
  | .sStore _ => 10
  | .cStore => 10
  | .cBody => 9
  | .cSleep => 0
  | .sDtor => match o.ph with | .unlocking _ => 3 | .cleared _ => 2 | _ => 1
  | .cDtor _ => match o.ph with | .unlocking _ => 3 | .cleared _ => 2 | _ => 1

/-- How far it is to the next test_and_set. -/
def ScPc.far (p : ScPc) (o : LkObj) : Nat := match p with
  | .cCtor => match o.ph with | .locking => 1 | .got _ => 5 | _ => 4
  | .cLock => match o.ph with | .locking => 1 | .got _ => 5 | _ => 4
  | .cTest => 3
  | .cSleep => 2
  | _ => 0

theorem ScTs.sure {i : Nat} {st st' : Bool} {f f' : Nat} {p p' : ScPc} {o o' : LkObj} {a : ScAct} {es : List ScEv} (h : ScTs i st f p o a p' o' f' st' es) (hc : a.calls = false) (hs : p.sure o = true) :
    p' = .idle ∨ (p'.sure o' = true ∧ p'.rank o' < p.rank o) := by
  cases h with
  | tas _ _ _ q h => cases h <;> simp_all [ScPc.sure, ScPc.rank, LkObj.owns]
  | got _ _ _ q h => cases h <;> simp_all [ScPc.sure, ScPc.rank, LkObj.owns]
  | gets _ _ _ q h => cases h <;> simp_all [ScPc.sure, ScPc.rank, LkObj.owns]
  | clear _ _ _ es h => cases h <;> simp_all [ScPc.sure, ScPc.rank]
  | drop _ _ _ es h => cases h <;> simp_all [ScPc.sure, ScPc.rank]
  | _ => simp_all [ScPc.sure, ScPc.rank, LkObj.owns, ScAct.calls]

theorem ScTs.waits {i : Nat} {st st' : Bool} {f' : Nat} {p p' : ScPc} {o o' : LkObj} {a : ScAct} {es : List ScEv} (h : ScTs i st 0 p o a p' o' f' st' es) (hc : a.calls = false) (hs : p.sure o = false) :
    p'.sure o' = true ∨ (p'.sure o' = false ∧ p' ≠ .idle ∧ p'.far o' < p.far o) := by
  cases h with
  | tas _ _ _ q h => cases h <;> simp_all [ScPc.sure, LkObj.owns]
  | got _ _ _ q h ok => cases h <;> cases ok <;> simp_all [ScPc.sure, ScPc.far, LkObj.owns]
  | gets _ _ _ q h l => cases h <;> cases l <;> simp_all [ScPc.sure, ScPc.far, LkObj.owns]
  | clear _ _ _ es h => cases h <;> simp_all [ScPc.sure]
  | drop _ _ _ es h => cases h <;> simp_all [ScPc.sure]
  | ret _ _ _ es h => cases h <;> simp_all [ScPc.sure]
  | _ => simp_all [ScPc.sure, ScPc.far, LkObj.owns, ScAct.calls]

/-- A thread that made a call can go on. -/
theorem Scs.can_go {s : Scs} {i : Nat} (hfit : (s.pc i).fits (s.lk.obj i)) (hp : s.pc i ≠ .idle) : ∃ x, ScAct.goes i x = true ∧ (s.step x).isSome = true := by
  cases hpc : s.pc i with
  | idle => exact absurd hpc hp
  | sBody => exact ⟨.started i true, by simp [ScAct.goes], by simp [Scs.step, hpc]⟩
  | _ =>
    refine ⟨.go i, by simp [ScAct.goes], ?_⟩
    rw [hpc] at hfit
    simp only [ScPc.fits] at hfit
    simp only [Scs.step, Scs.go, hpc]
    first
      | (rcases hfit with hfit | ⟨ok, hfit⟩ | hfit <;> simp [Scs.busy, Scs.use, Lks.step, Lks.go, hfit] <;> done)
      | (rcases hfit with hfit | hfit | hfit <;> simp [Scs.busy, Scs.use, Lks.step, Lks.go, hfit] <;> done)
      | (simp [Scs.use, Lks.step, hfit] <;> done)
      | (split <;> simp [Scs.use, Lks.step, hfit] <;> done)

theorem ScAct.goes_who {i : Nat} {x : ScAct} (h : ScAct.goes i x = true) : x.who = i ∧ x.calls = false := by
  cases x <;> simp_all [ScAct.goes, ScAct.who, ScAct.calls]

theorem ScAct.calls_goes {x : ScAct} (h : x.calls = false) : ScAct.goes x.who x = true := by
  cases x <;> simp_all [ScAct.goes, ScAct.who, ScAct.calls]

/-- Another thread does not matter. -/
theorem Scs.other {s s' : Scs} {a : ScAct} {fs : List ScEv} (hfit : ∀ j, (s.pc j).fits (s.lk.obj j)) (hs : s.step a = some (s', fs)) {j : Nat} (hj : j ≠ a.who) : s'.pc j = s.pc j ∧ s'.lk.obj j = s.lk.obj j := by
  obtain ⟨p, x, f, st, _, rfl⟩ := Scs.ts hs (hfit _)
  simp [Scs.put, hj]

theorem Scs.mine {s s' : Scs} {a : ScAct} {fs : List ScEv} (hfit : ∀ j, (s.pc j).fits (s.lk.obj j)) (hs : s.step a = some (s', fs)) :
    ScTs a.who s.started s.lk.flag (s.pc a.who) (s.lk.obj a.who) a (s'.pc a.who) (s'.lk.obj a.who) s'.lk.flag s'.started fs := by
  obtain ⟨p, x, f, st, h, rfl⟩ := Scs.ts hs (hfit _)
  simpa [Scs.put] using h

/-- A thread in a call cannot make another one. -/
theorem ScTs.calls_idle {i : Nat} {st st' : Bool} {f f' : Nat} {p p' : ScPc} {o o' : LkObj} {a : ScAct} {es : List ScEv} (h : ScTs i st f p o a p' o' f' st' es) (hc : a.calls = true) : p = .idle := by
  cases h <;> simp_all [ScAct.calls]

theorem ScTs.idle_calls {i : Nat} {st st' : Bool} {f f' : Nat} {p p' : ScPc} {o o' : LkObj} {a : ScAct} {es : List ScEv} (h : ScTs i st f p o a p' o' f' st' es) (hp : p = .idle) (hc : a.calls = false) : p' = .idle := by
  cases h with
  | tas _ _ _ q h => cases h <;> cases hp
  | got _ _ _ q h => cases h <;> cases hp
  | gets _ _ _ q h => cases h <;> cases hp
  | clear _ _ _ es h => cases h <;> cases hp
  | drop _ _ _ es h => cases h <;> cases hp
  | ret => rfl
  | start => cases hc
  | close => cases hc
  | _ => cases hp

section
variable {s : Nat → Scs} {a : Nat → Option ScAct} {e : Nat → List ScEv}

theorem Scs.inv_all (h0 : s 0 = Scs.init) (he : Exec Scs.step s a e) : ∀ n, (s n).Inv (e n) :=
  he.holds (fun t es => t.Inv es) (by rw [h0]; exact Scs.inv_init) (fun n x es _ hi hs => Scs.inv_step hi hs)

/-- A thread that need not wait returns. -/
theorem Scs.sure_returns (h0 : s 0 = Scs.init) (he : Exec Scs.step s a e) {i : Nat} (hf : Fair Scs.step s a (ScAct.goes i)) : ∀ r n, ((s n).pc i).sure ((s n).lk.obj i) = true → ((s n).pc i).rank ((s n).lk.obj i) ≤ r → ∃ m, n ≤ m ∧ (s m).pc i = .idle := by
  have hi := Scs.inv_all h0 he
  intro r
  induction r with
  | zero =>
    intro n h1 h2
    exfalso
    generalize (s n).pc i = p at h1 h2
    generalize (s n).lk.obj i = o at h1 h2
    cases p <;> simp [ScPc.sure, ScPc.rank] at h1 h2 <;> (split at h2 <;> simp at h2)
  | succ r ih =>
    intro n h1 h2
    obtain ⟨m, h3, h4⟩ := he.leads (ok := fun _ _ => True) (n0 := 0) (fun _ _ _ _ => trivial) (I := fun t => ∀ j, (t.pc j).fits (t.lk.obj j)) (fun n _ => (hi n).fits) hf
      (fun t => (t.pc i).sure (t.lk.obj i) = true ∧ (t.pc i).rank (t.lk.obj i) ≤ r + 1) (fun t => t.pc i = .idle ∨ ((t.pc i).sure (t.lk.obj i) = true ∧ (t.pc i).rank (t.lk.obj i) ≤ r))
      (fun t t' x es g1 _ g3 _ g5 => by
        by_cases hx : i = x.who
        · subst hx
          have := Scs.mine g1 g5
          cases hc : x.calls with
          | true =>
            have h6 := this.calls_idle hc
            rw [h6] at g3
            simp [ScPc.sure] at g3
          | false =>
            rcases this.sure hc g3.1 with h6 | ⟨h6, h7⟩
            · exact .inr (.inl h6)
            · exact .inr (.inr ⟨h6, by omega⟩)
        · obtain ⟨h6, h7⟩ := Scs.other g1 g5 hx
          rw [h6, h7]
          exact .inl g3)
      (fun t t' x es g1 _ g3 _ g5 g6 => by
        obtain ⟨rfl, hc⟩ := ScAct.goes_who g5
        rcases (Scs.mine g1 g6).sure hc g3.1 with h6 | ⟨h6, h7⟩
        · exact .inl h6
        · exact .inr ⟨h6, by omega⟩)
      (fun t g1 g2 => Scs.can_go (g1 i) (fun hc => by rw [hc] at g2; simp [ScPc.sure] at g2)) n (by omega) ⟨h1, h2⟩
    rcases h4 with h4 | ⟨h4, h5⟩
    · exact ⟨m, h3, h4⟩
    · obtain ⟨k, h6, h7⟩ := ih m h4 h5
      exact ⟨k, by omega, h7⟩

/-- Somebody has the flag. -/
def Scs.taken (s : Scs) : Prop := ∃ j, (s.lk.obj j).owns = true

theorem Scs.taken_flag {s : Scs} {o : Option Nat} (h : s.lk.Own o) (hn : ¬ s.taken) : s.lk.flag = 0 := by
  rw [h.flag]
  cases o with
  | none => rfl
  | some j => exact absurd ⟨j, (h.owns j).2 rfl⟩ hn

theorem ScPc.owns_sure {p : ScPc} {o : LkObj} (hf : p.fits o) (h : o.owns = true) : p.sure o = true := by
  cases p <;> simp_all [ScPc.fits, ScPc.sure, LkObj.owns]

/-- If nobody has the flag, somebody gets it, or thread `i` has returned. -/
theorem Scs.gets_taken (h0 : s 0 = Scs.init) (he : Exec Scs.step s a e) {i : Nat} (hf : Fair Scs.step s a (ScAct.goes i)) :
    ∀ r n, (s n).pc i ≠ .idle → ((s n).pc i).far ((s n).lk.obj i) ≤ r → ∃ m, n ≤ m ∧ ((s m).taken ∨ ((s m).pc i).sure ((s m).lk.obj i) = true) := by
  have hi := Scs.inv_all h0 he
  intro r
  induction r with
  | zero =>
    intro n h1 h2
    refine ⟨n, Nat.le_refl _, .inr ?_⟩
    generalize (s n).pc i = p at h1 h2
    generalize (s n).lk.obj i = o at h1 h2
    cases p <;> simp [ScPc.sure, ScPc.far] at h1 h2 ⊢ <;> (split at h2 <;> simp at h2)
  | succ r ih =>
    intro n h1 h2
    have H := he.leads (ok := fun _ _ => True) (n0 := 0) (fun _ _ _ _ => trivial) (I := fun t => (∀ j, (t.pc j).fits (t.lk.obj j)) ∧ ∃ o, t.lk.Own o) (fun n _ => ⟨(hi n).fits, (hi n).own⟩) hf
      (fun t => t.pc i ≠ .idle ∧ (t.pc i).far (t.lk.obj i) ≤ r + 1 ∧ ¬ t.taken ∧ (t.pc i).sure (t.lk.obj i) = false)
      (fun t => (t.taken ∨ (t.pc i).sure (t.lk.obj i) = true) ∨ (t.pc i ≠ .idle ∧ (t.pc i).far (t.lk.obj i) ≤ r))
      (fun t t' x es g1 _ g3 _ g5 => by
        obtain ⟨h6, h7, h8, h9⟩ := g3
        obtain ⟨o, ho⟩ := g1.2
        by_cases hx : i = x.who
        · subst hx
          have hm := Scs.mine g1.1 g5
          rw [Scs.taken_flag ho h8] at hm
          cases hc : x.calls with
          | true => exact absurd (hm.calls_idle hc) h6
          | false =>
            rcases hm.waits hc h9 with h10 | ⟨_, h10, h11⟩
            · exact .inr (.inl (.inr h10))
            · exact .inr (.inr ⟨h10, by omega⟩)
        · obtain ⟨h10, h11⟩ := Scs.other g1.1 g5 hx
          by_cases ht : t'.taken
          · exact .inr (.inl (.inl ht))
          · rw [h10, h11]
            exact .inl ⟨h6, h7, ht, h9⟩)
      (fun t t' x es g1 _ g3 _ g5 g6 => by
        obtain ⟨h6, h7, h8, h9⟩ := g3
        obtain ⟨o, ho⟩ := g1.2
        obtain ⟨rfl, hc⟩ := ScAct.goes_who g5
        have hm := Scs.mine g1.1 g6
        rw [Scs.taken_flag ho h8] at hm
        rcases hm.waits hc h9 with h10 | ⟨_, h10, h11⟩
        · exact .inl (.inr h10)
        · exact .inr ⟨h10, by omega⟩)
      (fun t g1 g2 => Scs.can_go (g1.1 i) g2.1)
    obtain ⟨m, h3, h4⟩ : ∃ m, n ≤ m ∧ (((s m).taken ∨ ((s m).pc i).sure ((s m).lk.obj i) = true) ∨ ((s m).pc i ≠ .idle ∧ ((s m).pc i).far ((s m).lk.obj i) ≤ r)) := by
      by_cases ht : (s n).taken
      · exact ⟨n, Nat.le_refl _, .inl (.inl ht)⟩
      · cases hs : ((s n).pc i).sure ((s n).lk.obj i) with
        | true => exact ⟨n, Nat.le_refl _, .inl (.inr hs)⟩
        | false => exact H n (by omega) ⟨h1, h2, ht, hs⟩
    rcases h4 with h4 | ⟨h4, h5⟩
    · exact ⟨m, h3, h4⟩
    · obtain ⟨k, h6, h7⟩ := ih m h4 h5
      exact ⟨k, by omega, h7⟩

/-- The threads below `b` that are in a call. -/
def Scs.active (s : Scs) (b : Nat) : Nat := ((List.range b).filter (fun j => decide (s.pc j ≠ .idle))).length

theorem filter_length_le {p q : Nat → Bool} (l : List Nat) (h : ∀ j, q j = true → p j = true) : (l.filter q).length ≤ (l.filter p).length := by
  induction l with
  | nil => simp
  | cons x l ih =>
    simp only [List.filter_cons]
    cases hq : q x with
    | true => simp [h x hq, ih]
    | false => cases p x <;> simp <;> omega

theorem filter_length_lt {p q : Nat → Bool} (l : List Nat) (h : ∀ j, q j = true → p j = true) {i : Nat} (hi : i ∈ l) (h1 : p i = true) (h2 : q i = false) : (l.filter q).length < (l.filter p).length := by
  induction l with
  | nil => cases hi
  | cons x l ih =>
    simp only [List.filter_cons]
    rcases List.mem_cons.1 hi with rfl | hi
    · have := filter_length_le l h
      simp [h1, h2]
      omega
    · have := ih hi
      cases hq : q x with
      | true => simp [h x hq, this]
      | false => cases p x <;> simp <;> omega

/-- C102: start() returns, whatever the other threads do, if its thread is not stopped for ever and do_start() returns. -/
theorem C102_start_returns (s : Nat → Scs) (a : Nat → Option ScAct) (e : Nat → List ScEv) (h0 : s 0 = Scs.init) (he : Exec Scs.step s a e) (i : Nat) (hf : Fair Scs.step s a (ScAct.goes i)) (n : Nat)
    (hn : a n = some (.start i)) : ∃ m, n < m ∧ (s m).pc i = .idle := by
  obtain ⟨es, hs, _⟩ := he.next n _ hn
  simp only [Scs.step] at hs
  split at hs
  · cases hs' : s (n + 1)
    simp only [Option.some.injEq, Prod.mk.injEq] at hs
    have hp : (s (n + 1)).pc i = .sOut := by rw [← hs.1]; simp [Scs.at]
    obtain ⟨m, h1, h2⟩ := Scs.sure_returns h0 he hf 20 (n + 1) (by rw [hp]; rfl) (by rw [hp]; exact Nat.le_refl _)
    exact ⟨m, by omega, h2⟩
  · cases hs

/-- C102: a call of close() returns, if no thread is stopped for ever, do_start() returns and the other threads do not go on calling start() and close() for ever. -/
theorem C102_close_returns (s : Nat → Scs) (a : Nat → Option ScAct) (e : Nat → List ScEv) (h0 : s 0 = Scs.init) (he : Exec Scs.step s a e) (hf : ∀ j, Fair Scs.step s a (ScAct.goes j)) (i N : Nat)
    (hN : ∀ n x, N ≤ n → a n = some x → x.calls = true → x.who = i) (n : Nat) : ∃ m, n ≤ m ∧ (s m).pc i = .idle := by
  have hi := Scs.inv_all h0 he
  apply Classical.byContradiction
  intro hno
  have hno : ∀ m, n ≤ m → (s m).pc i ≠ .idle := fun m hm hc => hno ⟨m, hm, hc⟩
  -- only finitely many threads ever made a call
  have hb : ∀ k, ∃ b, ∀ j, b ≤ j → (s k).pc j = .idle := by
    intro k
    induction k with
    | zero => exact ⟨0, fun j _ => by rw [h0]; rfl⟩
    | succ k ih =>
      obtain ⟨b, hb⟩ := ih
      cases hx : a k with
      | none => exact ⟨b, by rw [(he.idle k hx).1]; exact hb⟩
      | some x =>
        obtain ⟨es, hs, _⟩ := he.next k x hx
        refine ⟨b + x.who + 1, fun j hj => ?_⟩
        rw [(Scs.other (hi k).fits hs (j := j) (by omega)).1]
        exact hb j (by omega)
  obtain ⟨b, hb⟩ := hb (n + N)
  -- nobody makes a call any more
  have hcalls : ∀ k x, n + N ≤ k → a k = some x → x.calls = false := by
    intro k x hk hx
    cases hc : x.calls with
    | false => rfl
    | true =>
      have hw := hN k x (by omega) hx hc
      obtain ⟨es, hs, _⟩ := he.next k x hx
      have := (Scs.mine (hi k).fits hs).calls_idle hc
      rw [hw] at this
      exact absurd this (hno k (by omega))
  have hless : ∀ k j, n + N ≤ k → (s (k + 1)).pc j ≠ .idle → (s k).pc j ≠ .idle := by
    intro k j hk hj hc
    cases hx : a k with
    | none => rw [(he.idle k hx).1] at hj; exact hj hc
    | some x =>
      obtain ⟨es, hs, _⟩ := he.next k x hx
      by_cases hw : j = x.who
      · subst hw
        have h1 := Scs.mine (hi k).fits hs
        rw [h1.idle_calls hc (hcalls k x hk hx)] at hj
        exact hj rfl
      · exact hj (by rw [(Scs.other (hi k).fits hs hw).1]; exact hc)
  have hlate : ∀ d k j, n + N ≤ k → (s (k + d)).pc j ≠ .idle → (s k).pc j ≠ .idle := by
    intro d
    induction d with
    | zero => intro k j _ h; exact h
    | succ d ih => intro k j hk h; exact ih k j hk (hless (k + d) j (by omega) h)
  have main : ∀ v k, n + N ≤ k → (s k).active b ≤ v → False := by
    intro v
    induction v with
    | zero =>
      intro k hk hv
      have h1 := hno k (by omega)
      have h2 : i < b := by
        apply Classical.byContradiction
        intro hc
        have := hlate (k - (n + N)) (n + N) i (Nat.le_refl _) (by rw [show n + N + (k - (n + N)) = k by omega]; exact h1)
        exact this (hb i (by omega))
      have h3 : i ∈ (List.range b).filter (fun j => decide ((s k).pc j ≠ .idle)) := by simp [h1, h2]
      have := List.length_pos_of_mem h3
      simp only [Scs.active] at hv
      omega
    | succ v ih =>
      intro k hk hv
      obtain ⟨m, h1, h2⟩ := Scs.gets_taken h0 he (hf i) _ k (hno k (by omega)) (Nat.le_refl _)
      obtain ⟨j, h3, h4⟩ : ∃ j, (s m).pc j ≠ .idle ∧ ((s m).pc j).sure ((s m).lk.obj j) = true := by
        rcases h2 with ⟨j, h2⟩ | h2
        · have := ScPc.owns_sure ((hi m).fits j) h2
          exact ⟨j, (fun hc => by rw [hc] at this; simp [ScPc.sure] at this), this⟩
        · exact ⟨i, hno m (by omega), h2⟩
      obtain ⟨l, h5, h6⟩ := Scs.sure_returns h0 he (hf j) _ m h4 (Nat.le_refl _)
      have hk' : (s k).pc j ≠ .idle := hlate (m - k) k j hk (by rw [show k + (m - k) = m by omega]; exact h3)
      have hjb : j < b := by
        apply Classical.byContradiction
        intro hc
        have := hlate (k - (n + N)) (n + N) j (Nat.le_refl _) (by rw [show n + N + (k - (n + N)) = k by omega]; exact hk')
        exact this (hb j (by omega))
      refine ih l (by omega) ?_
      have : (s l).active b < (s k).active b := by
        refine filter_length_lt (List.range b) (fun q hq => ?_) (List.mem_range.2 hjb) (by simpa using hk') (by simpa using h6)
        simp only [decide_eq_true_eq] at hq ⊢
        exact hlate (l - k) k q hk (by rw [show k + (l - k) = l by omega]; exact hq)
      omega
  exact main _ (n + N) (Nat.le_refl _) (Nat.le_refl _)

end

/-! ### executions -/

/-- The actions `a`, one at each moment. -/
def drive {State Action Event : Type} (step : State → Action → Option (State × List Event)) (s0 : State) (a : Nat → Action) : Nat → State × List Event
  | 0 => (s0, [])
  | n + 1 => match step (drive step s0 a n).1 (a n) with
    | none => drive step s0 a n
    | some r => (r.1, (drive step s0 a n).2 ++ r.2)

theorem drive_exec {State Action Event : Type} {step : State → Action → Option (State × List Event)} {s0 : State} {a : Nat → Action} (h : ∀ n, (step (drive step s0 a n).1 (a n)).isSome = true) :
    Exec step (fun n => (drive step s0 a n).1) (fun n => some (a n)) (fun n => (drive step s0 a n).2) := by
  refine ⟨rfl, fun n hn => (by cases hn), fun n x hn => ?_⟩
  cases hn
  obtain ⟨r, hr⟩ := Option.isSome_iff_exists.mp (h n)
  exact ⟨r.2, by simp only [drive, hr], by simp only [drive, hr]⟩

/-- A schedule that repeats itself from time `n0` on, with period `p`, and that leads back to the same state, goes on like this for ever. -/
theorem drive_cycle {State Action Event : Type} {step : State → Action → Option (State × List Event)} {s0 : State} {a : Nat → Action} {n0 p : Nat} (ha : ∀ n, n0 ≤ n → a (n + p) = a n)
    (hs : (drive step s0 a (n0 + p)).1 = (drive step s0 a n0).1) : ∀ n, n0 ≤ n → (drive step s0 a (n + p)).1 = (drive step s0 a n).1 := by
  intro n hn
  obtain ⟨k, rfl⟩ := Nat.exists_eq_add_of_le hn
  clear hn
  induction k with
  | zero => exact hs
  | succ k ih =>
    rw [show n0 + (k + 1) + p = (n0 + k + p) + 1 by omega, show n0 + (k + 1) = (n0 + k) + 1 by omega]
    simp only [drive]
    rw [ha (n0 + k) (by omega), ih]
    split <;> simp_all

/-- Thread 1 starts the socket, before that thread 0 calls close() and finds the lock taken. -/
def waitPre : List ScAct := [.start 1, .go 1, .go 1, .go 1, .go 1, .go 1, .close 0, .go 0, .go 0, .go 0, .go 0]

/-- Thread 0 tries again while thread 1 is in do_start(); then thread 1 finishes start(), closes the socket and starts it again. -/
def waitCycle : List ScAct := [.go 0, .go 0, .go 0, .go 0, .go 0, .started 1 true, .go 1, .go 1, .go 1, .go 1, .close 1, .go 1, .go 1, .go 1, .go 1, .go 1, .go 1, .go 1, .go 1, .go 1, .go 1, .start 1, .go 1, .go 1, .go 1, .go 1, .go 1]

def waitSched (n : Nat) : ScAct := if n < 11 then (waitPre[n]?).getD (.go 0) else (waitCycle[(n - 11) % 27]?).getD (.go 0)

theorem wait_period (n : Nat) (h : 11 ≤ n) : waitSched (n + 27) = waitSched n := by
  simp only [waitSched, if_neg (show ¬ n + 27 < 11 by omega), if_neg (show ¬ n < 11 by omega)]
  rw [show n + 27 - 11 = (n - 11) + 27 by omega, Nat.add_mod_right]

theorem wait_who (n : Nat) : (waitSched n).who ≤ 1 := by
  have h : ∀ i : Fin 11, ((waitPre[i.1]?).getD (.go 0)).who ≤ 1 := by decide +kernel
  have h' : ∀ i : Fin 27, ((waitCycle[i.1]?).getD (.go 0)).who ≤ 1 := by decide +kernel
  unfold waitSched
  split
  · next hn => exact h ⟨n, hn⟩
  · exact h' ⟨(n - 11) % 27, Nat.mod_lt _ (by omega)⟩

theorem wait_first : ∀ i : Fin 38, (Scs.step (drive Scs.step Scs.init waitSched i.1).1 (waitSched i.1)).isSome = true := by decide +kernel

theorem wait_inv (n : Nat) : (drive Scs.step Scs.init waitSched n).1.Inv (drive Scs.step Scs.init waitSched n).2 := by
  induction n with
  | zero => exact Scs.inv_init
  | succ n ih =>
    simp only [drive]
    split
    · exact ih
    · next r hr => exact Scs.inv_step ih hr

theorem wait_other (n j : Nat) (hj : 1 < j) : (drive Scs.step Scs.init waitSched n).1.pc j = .idle ∧ (drive Scs.step Scs.init waitSched n).1.lk.obj j = ⟨false, .gone⟩ := by
  induction n with
  | zero => exact ⟨rfl, rfl⟩
  | succ n ih =>
    simp only [drive]
    split
    · exact ih
    · next r hr =>
      have := Scs.other (wait_inv n).fits hr (j := j) (by have := wait_who n; omega)
      rw [this.1, this.2]
      exact ih

theorem wait_back : (drive Scs.step Scs.init waitSched (11 + 27)).1 = (drive Scs.step Scs.init waitSched 11).1 := by
  have h1 : (drive Scs.step Scs.init waitSched 38).1.lk.flag = (drive Scs.step Scs.init waitSched 11).1.lk.flag ∧ (drive Scs.step Scs.init waitSched 38).1.started = (drive Scs.step Scs.init waitSched 11).1.started ∧
      (∀ j : Fin 2, (drive Scs.step Scs.init waitSched 38).1.pc j.1 = (drive Scs.step Scs.init waitSched 11).1.pc j.1 ∧ (drive Scs.step Scs.init waitSched 38).1.lk.obj j.1 = (drive Scs.step Scs.init waitSched 11).1.lk.obj j.1) := by decide +kernel
  have h2 : (drive Scs.step Scs.init waitSched 38).1.pc = (drive Scs.step Scs.init waitSched 11).1.pc := by
    funext j
    by_cases hj : j < 2
    · exact (h1.2.2 ⟨j, hj⟩).1
    · rw [(wait_other 38 j (by omega)).1, (wait_other 11 j (by omega)).1]
  have h3 : (drive Scs.step Scs.init waitSched 38).1.lk.obj = (drive Scs.step Scs.init waitSched 11).1.lk.obj := by
    funext j
    by_cases hj : j < 2
    · exact (h1.2.2 ⟨j, hj⟩).2
    · rw [(wait_other 38 j (by omega)).2, (wait_other 11 j (by omega)).2]
  obtain ⟨h4, h5, _⟩ := h1
  show (drive Scs.step Scs.init waitSched 38).1 = _
  generalize (drive Scs.step Scs.init waitSched 38).1 = y at *
  generalize (drive Scs.step Scs.init waitSched 11).1 = z at *
  obtain ⟨⟨f1, o1⟩, st1, p1⟩ := y
  obtain ⟨⟨f2, o2⟩, st2, p2⟩ := z
  simp only at h2 h3 h4 h5
  rw [h2, h3, h4, h5]

theorem ScTs.closeRet {i k : Nat} {st st' b : Bool} {f f' : Nat} {p p' : ScPc} {o o' : LkObj} {a : ScAct} {es : List ScEv} (h : ScTs i st f p o a p' o' f' st' es) (hb : ScEv.closeRet k b ∈ es) : i = k ∧ p' = .idle := by
  cases h with
  | ret _ _ _ _ hq =>
    cases hq with
    | s => simp at hb
    | c d => simp only [List.mem_singleton, ScEv.closeRet.injEq] at hb; exact ⟨hb.1.symm, rfl⟩
  | _ => simp at hb

/-- C102, what does not hold: no thread is stopped for ever and do_start() returns each time, but thread 0 waits in close() for ever (each time it tries, every 10 ms, thread 1 is just starting or closing the socket; thread 1 calls start() and
close() in turn). -/
theorem C102_fails_close_waits : ∃ (s : Nat → Scs) (a : Nat → Option ScAct) (e : Nat → List ScEv), s 0 = Scs.init ∧ Exec Scs.step s a e ∧ (∀ j, Fair Scs.step s a (ScAct.goes j)) ∧
    a 6 = some (.close 0) ∧ (∀ n, 6 < n → (s n).pc 0 ≠ .idle) ∧ ∀ n, ∀ b, ScEv.closeRet 0 b ∉ e n := by
  have hcyc := drive_cycle (step := Scs.step) (s0 := Scs.init) wait_period wait_back
  have hsome : ∀ n, (Scs.step (drive Scs.step Scs.init waitSched n).1 (waitSched n)).isSome = true := by
    intro n
    induction n using Nat.strongRecOn with
    | _ n ih =>
      by_cases hn : n < 38
      · exact wait_first ⟨n, hn⟩
      · have h1 := ih (n - 27) (by omega)
        have h2 := hcyc (n - 27) (by omega)
        have h3 := wait_period (n - 27) (by omega)
        rw [show n - 27 + 27 = n by omega] at h2 h3
        rw [h2, h3]
        exact h1
  have he := drive_exec hsome
  have hin : ∀ n, 6 < n → (drive Scs.step Scs.init waitSched n).1.pc 0 ≠ .idle := by
    have h0 : ∀ i : Fin 38, 6 < i.1 → (drive Scs.step Scs.init waitSched i.1).1.pc 0 ≠ .idle := by decide +kernel
    intro n hn
    induction n using Nat.strongRecOn with
    | _ n ih =>
      by_cases h : n < 38
      · exact h0 ⟨n, h⟩ hn
      · have h2 := hcyc (n - 27) (by omega)
        rw [show n - 27 + 27 = n by omega] at h2
        rw [h2]
        exact ih (n - 27) (by omega) (by omega)
  have hper : ∀ k r, 11 ≤ r → waitSched (27 * k + r) = waitSched r := by
    intro k r hr
    induction k with
    | zero => rw [Nat.mul_zero, Nat.zero_add]
    | succ k ih =>
      rw [show 27 * (k + 1) + r = (27 * k + r) + 27 by omega, wait_period _ (by omega)]
      exact ih
  refine ⟨_, _, _, rfl, he, fun j => ?_, rfl, hin, fun n b hc => ?_⟩
  · by_cases h0 : j = 0
    · subst h0
      exact fair_periodic 27 11 (.go 0) (by omega) rfl (fun k => by rw [hper k 11 (by omega)]; rfl)
    · by_cases h1 : j = 1
      · subst h1
        exact fair_periodic 27 17 (.go 1) (by omega) rfl (fun k => by rw [hper k 17 (by omega)]; rfl)
      · intro ho
        obtain ⟨m, _, x, hx, hs⟩ := ho 0
        exfalso
        have hp := (wait_other m j (by omega)).1
        simp only at hs
        cases x with
        | start k => simp [ScAct.goes] at hx
        | close k => simp [ScAct.goes] at hx
        | go k =>
          simp only [ScAct.goes, beq_iff_eq] at hx
          subst hx
          simp [Scs.step, Scs.go, hp] at hs
        | started k ok =>
          simp only [ScAct.goes, beq_iff_eq] at hx
          subst hx
          simp [Scs.step, hp] at hs
        | refuse k =>
          simp only [ScAct.goes, beq_iff_eq] at hx
          subst hx
          simp [Scs.step, hp] at hs
  · -- an event of thread 0's return would leave it idle
    have hret : ∀ n, ∀ b, ScEv.closeRet 0 b ∉ (drive Scs.step Scs.init waitSched n).2 := by
      intro n
      induction n with
      | zero => intro b hb; cases hb
      | succ n ih =>
        intro b hb
        simp only [drive] at hb
        split at hb
        · exact ih b hb
        · next r hr =>
          rcases List.mem_append.1 hb with hb | hb
          · exact ih b hb
          · have hm := Scs.mine (wait_inv n).fits hr
            have hidle : r.1.pc 0 = .idle := by
              obtain ⟨h5, h6⟩ := hm.closeRet hb
              rw [h5] at h6
              exact h6
            have h1 : (drive Scs.step Scs.init waitSched (n + 1)).1 = r.1 := by simp only [drive, hr]
            by_cases hn : 6 < n + 1
            · exact hin (n + 1) hn (by rw [h1]; exact hidle)
            · have h2 : ∀ i : Fin 7, (drive Scs.step Scs.init waitSched (i.1 + 1)).2 = (if i.1 + 1 = 6 then [.starting 1] else if i.1 + 1 = 7 then [.starting 1] else []) := by decide +kernel
              have h3 := h2 ⟨n, by omega⟩
              simp only [drive, hr] at h3
              have h4 : ScEv.closeRet 0 b ∈ (drive Scs.step Scs.init waitSched n).2 ++ r.2 := List.mem_append.2 (.inr hb)
              rw [h3] at h4
              (repeat' split at h4) <;> simp at h4
    exact hret n b hc

def meetActs : List ScAct := [.start 0, .go 0, .go 0, .go 0, .go 0, .close 1, .go 1, .go 1, .go 0, .started 0 true, .go 0, .go 0, .go 0, .go 0, .go 1, .go 1, .go 1, .go 1, .go 1, .go 1, .go 1, .go 1, .go 1, .go 1, .go 1, .go 1, .go 1]

/-- The hypotheses of C102_start_returns and C102_close_returns can be met: two threads, one starts, the other one closes at the same time. -/
theorem C102_fair_exists : ∃ (s : Nat → Scs) (a : Nat → Option ScAct) (e : Nat → List ScEv), s 0 = Scs.init ∧ Exec Scs.step s a e ∧ (∀ j, Fair Scs.step s a (ScAct.goes j)) ∧ (∃ N, ∀ n x, N ≤ n → a n = some x → x.calls = false) ∧
    a 0 = some (.start 0) ∧ a 5 = some (.close 1) ∧ ∃ n, e n = [.starting 0, .up 0 true, .startRet 0, .closing 1, .closed 1, .closeRet 1 true] := by
  have h1 : ∀ i : Fin meetActs.length, (Scs.step (play Scs.step Scs.init meetActs i).1 meetActs[i]).isSome = true := by decide +kernel
  have h2 : (play Scs.step Scs.init meetActs meetActs.length).2 = [.starting 0, .up 0 true, .startRet 0, .closing 1, .closed 1, .closeRet 1 true] := by decide +kernel
  have h3 : ∀ n, (play Scs.step Scs.init meetActs n).1.Inv (play Scs.step Scs.init meetActs n).2 := by
    intro n
    induction n with
    | zero => exact Scs.inv_init
    | succ n ih =>
      simp only [play]
      split
      · exact ih
      · split
        · exact ih
        · next r hr => exact Scs.inv_step ih hr
  have h4 : ∀ j, (play Scs.step Scs.init meetActs meetActs.length).1.pc j = .idle := by
    have hw : ∀ i : Fin 27, ∀ x, meetActs[i.1]? = some x → x.who ≤ 1 := by decide +kernel
    have h5 : ∀ j, 1 < j → ∀ n, (play Scs.step Scs.init meetActs n).1.pc j = .idle := by
      intro j hj n
      induction n with
      | zero => rfl
      | succ n ih =>
        simp only [play]
        split
        · exact ih
        · next x hx =>
          split
          · exact ih
          · next r hr =>
            have hn : n < 27 := (List.getElem?_eq_some_iff.mp hx).1
            have hwx := hw ⟨n, hn⟩ x hx
            rw [(Scs.other (h3 n).fits hr (j := j) (by omega)).1]
            exact ih
    intro j
    by_cases hj : j < 2
    · have h6 : ∀ j : Fin 2, (play Scs.step Scs.init meetActs meetActs.length).1.pc j.1 = .idle := by decide +kernel
      exact h6 ⟨j, hj⟩
    · exact h5 j (by omega) _
  refine ⟨_, _, _, rfl, play_exec Scs.init meetActs h1, fun j => play_fair Scs.init meetActs _ (fun x hx => ?_), ⟨27, fun n x hn hx => ?_⟩, rfl, rfl, ⟨meetActs.length, h2⟩⟩
  · cases x with
    | start k => simp [ScAct.goes] at hx
    | close k => simp [ScAct.goes] at hx
    | go k => simp [Scs.step, Scs.go, h4 k]
    | started k ok => simp [Scs.step, h4 k]
    | refuse k => simp [Scs.step, h4 k]
  · have h5 := (List.getElem?_eq_some_iff.mp hx).1
    have h6 : meetActs.length = 27 := rfl
    omega

end StAsio
