import Verif.Spec.Fair
/-!
Rules for fair executions.
-/
set_option autoImplicit false
namespace StAsio

variable {State Action Event : Type} {step : State → Action → Option (State × List Event)} {s : Nat → State} {a : Nat → Option Action} {e : Nat → List Event}

/-- What every step keeps holds from then on. `J`: something known to hold all the time. -/
theorem Exec.stays (he : Exec step s a e) {ok : State → Action → Prop} {n0 : Nat} (hok : ∀ n x, n0 ≤ n → a n = some x → ok (s n) x) {J : State → Prop} (hJ : ∀ n, n0 ≤ n → J (s n)) (I : State → Prop) (h0 : I (s n0))
    (hstep : ∀ t t' x es, J t → J t' → I t → ok t x → step t x = some (t', es) → I t') : ∀ n, n0 ≤ n → I (s n) := by
  intro n hn
  obtain ⟨k, rfl⟩ := Nat.exists_eq_add_of_le hn
  clear hn
  induction k with
  | zero => exact h0
  | succ k ih =>
    rw [← Nat.add_assoc]
    cases ha : a (n0 + k) with
    | none => rw [(he.idle _ ha).1]; exact ih
    | some x =>
      obtain ⟨es, hs, _⟩ := he.next _ x ha
      exact hstep _ _ x es (hJ _ (by omega)) (hJ _ (by omega)) ih (hok _ x (by omega) ha) hs

/-- As long as `Q` is not reached, `P` holds and actions of class `c` are possible; each of them leads to `Q`. -/
theorem Exec.leads (he : Exec step s a e) {ok : State → Action → Prop} {n0 : Nat} (hok : ∀ n x, n0 ≤ n → a n = some x → ok (s n) x) {I : State → Prop} (hI : ∀ n, n0 ≤ n → I (s n)) {c : Action → Bool}
    (hf : Fair step s a c) (P Q : State → Prop) (hstep : ∀ t t' x es, I t → I t' → P t → ok t x → step t x = some (t', es) → P t' ∨ Q t')
    (hc : ∀ t t' x es, I t → I t' → P t → ok t x → c x = true → step t x = some (t', es) → Q t') (hen : ∀ t, I t → P t → ∃ x, c x = true ∧ (step t x).isSome = true) :
    ∀ n, n0 ≤ n → P (s n) → ∃ m, n ≤ m ∧ Q (s m) := by
  intro n hn hp
  apply Classical.byContradiction
  intro hno
  have hno : ∀ m, n ≤ m → ¬ Q (s m) := fun m hm hq => hno ⟨m, hm, hq⟩
  have hall : ∀ k, P (s (n + k)) := by
    intro k
    induction k with
    | zero => exact hp
    | succ k ih =>
      rw [← Nat.add_assoc]
      cases ha : a (n + k) with
      | none => rw [(he.idle _ ha).1]; exact ih
      | some x =>
        obtain ⟨es, hs, _⟩ := he.next _ x ha
        rcases hstep _ _ x es (hI _ (by omega)) (hI _ (by omega)) ih (hok _ x (by omega) ha) hs with h1 | h1
        · exact h1
        · exact absurd h1 (hno _ (by omega))
  obtain ⟨m, hm, x, hx, ha⟩ := hf (fun k => ⟨n + k, by omega, hen _ (hI _ (by omega)) (hall k)⟩) n
  obtain ⟨es, hs, _⟩ := he.next _ x ha
  have h1 := hall (m - n)
  rw [show n + (m - n) = m by omega] at h1
  exact hno (m + 1) (by omega) (hc _ _ x es (hI _ (by omega)) (hI _ (by omega)) h1 (hok _ x (by omega) ha) hx hs)

/-- If `P` lasts and makes an action possible that cannot be taken, then `P` never holds. -/
theorem Exec.never (he : Exec step s a e) {ok : State → Action → Prop} {n0 : Nat} (hok : ∀ n x, n0 ≤ n → a n = some x → ok (s n) x) {I : State → Prop} (hI : ∀ n, n0 ≤ n → I (s n)) {c : Action → Bool}
    (hf : Fair step s a c) (P : State → Prop) (hstep : ∀ t t' x es, I t → I t' → P t → ok t x → c x = false → step t x = some (t', es) → P t')
    (hc : ∀ t t' x es, I t → I t' → P t → ok t x → c x = true → step t x = some (t', es) → False) (hen : ∀ t, I t → P t → ∃ x, c x = true ∧ (step t x).isSome = true) :
    ∀ n, n0 ≤ n → ¬ P (s n) := by
  intro n hn hp
  obtain ⟨m, _, h⟩ := he.leads hok hI hf P (fun _ => False) (fun t t' x es h1 h2 h3 h4 h5 => by
    cases hx : c x with
    | true => exact .inr (hc t t' x es h1 h2 h3 h4 hx h5)
    | false => exact .inl (hstep t t' x es h1 h2 h3 h4 hx h5)) hc hen n hn hp
  exact h

/-- A number that never grows, and that some fair class of actions makes smaller whenever it is not zero, is zero from some time on. -/
theorem Exec.drains (he : Exec step s a e) {ok : State → Action → Prop} {n0 : Nat} (hok : ∀ n x, n0 ≤ n → a n = some x → ok (s n) x) {I : State → Prop} (hI : ∀ n, n0 ≤ n → I (s n)) {c : Action → Bool}
    (hf : Fair step s a c) (f : State → Nat) (hstep : ∀ t t' x es, I t → I t' → ok t x → step t x = some (t', es) → f t' ≤ f t)
    (hc : ∀ t t' x es, I t → I t' → 0 < f t → ok t x → c x = true → step t x = some (t', es) → f t' < f t) (hen : ∀ t, I t → 0 < f t → ∃ x, c x = true ∧ (step t x).isSome = true) :
    ∃ N, n0 ≤ N ∧ ∀ n, N ≤ n → f (s n) = 0 := by
  have h : ∀ v n, n0 ≤ n → f (s n) = v → ∃ N, n ≤ N ∧ f (s N) = 0 := by
    intro v
    induction v using Nat.strongRecOn with
    | _ v ih =>
      intro n hn hv
      by_cases h0 : v = 0
      · exact ⟨n, Nat.le_refl _, by rw [hv, h0]⟩
      · obtain ⟨m, hm, h1⟩ := he.leads hok hI hf (fun t => f t = v) (fun t => f t < v)
          (fun t t' x es h1 h2 h3 h4 h5 => by
            have := hstep t t' x es h1 h2 h4 h5
            omega)
          (fun t t' x es h1 h2 h3 h4 h5 h6 => by
            have := hc t t' x es h1 h2 (by omega) h4 h5 h6
            omega)
          (fun t h1 h3 => hen t h1 (by omega)) n hn hv
        obtain ⟨N, hN, h2⟩ := ih _ h1 m (by omega) rfl
        exact ⟨N, by omega, h2⟩
  obtain ⟨N, hN, h1⟩ := h _ n0 (Nat.le_refl _) rfl
  refine ⟨N, hN, he.stays (ok := ok) (fun n x hn => hok n x (by omega)) (J := I) (fun n hn => hI n (by omega)) (fun t => f t = 0) h1 (fun t t' x es h1 h2 h3 h4 h5 => ?_)⟩
  have := hstep t t' x es h1 h2 h4 h5
  omega

/-- A number that never grows is constant from some time on. -/
theorem Exec.settles (he : Exec step s a e) {ok : State → Action → Prop} {n0 : Nat} (hok : ∀ n x, n0 ≤ n → a n = some x → ok (s n) x) {I : State → Prop} (hI : ∀ n, n0 ≤ n → I (s n))
    (f : State → Nat) (hstep : ∀ t t' x es, I t → I t' → ok t x → step t x = some (t', es) → f t' ≤ f t) : ∃ N, n0 ≤ N ∧ ∀ n, N ≤ n → f (s n) = f (s N) := by
  have h : ∀ v n, n0 ≤ n → f (s n) ≤ v → ∃ N, n0 ≤ N ∧ ∀ m, N ≤ m → f (s m) = f (s N) := by
    intro v
    induction v with
    | zero =>
      intro n hn hv
      refine ⟨n, hn, fun m hm => ?_⟩
      have := he.stays (ok := ok) (n0 := n) (fun n x hn => hok n x (by omega)) (J := I) (fun n hn => hI n (by omega)) (fun t => f t ≤ 0) hv
        (fun t t' x es h1 h2 h3 h4 h5 => Nat.le_trans (hstep t t' x es h1 h2 h4 h5) h3) m hm
      omega
    | succ v ih =>
      intro n hn hv
      by_cases hx : ∃ m, n ≤ m ∧ f (s m) ≤ v
      · obtain ⟨m, hm, h1⟩ := hx
        exact ih m (by omega) h1
      · refine ⟨n, hn, fun m hm => ?_⟩
        have h1 := he.stays (ok := ok) (n0 := n) (fun n x hn => hok n x (by omega)) (J := I) (fun n hn => hI n (by omega)) (fun t => f t ≤ v + 1) hv
          (fun t t' x es h1 h2 h3 h4 h5 => Nat.le_trans (hstep t t' x es h1 h2 h4 h5) h3) m hm
        have h2 : ¬ f (s m) ≤ v := fun hc => hx ⟨m, hm, hc⟩
        have h3 : ¬ f (s n) ≤ v := fun hc => hx ⟨n, Nat.le_refl _, hc⟩
        omega
  exact h _ n0 (Nat.le_refl _) (Nat.le_refl _)

/-- A number that always grows again until it reaches `t`. -/
theorem reaches {f : Nat → Nat} {t : Nat} (h : ∀ n, f n < t → ∃ m, n ≤ m ∧ f n < f m) (n : Nat) : ∃ m, n ≤ m ∧ t ≤ f m := by
  suffices ∀ d n, t ≤ f n + d → ∃ m, n ≤ m ∧ t ≤ f m from this t n (by omega)
  intro d
  induction d with
  | zero => intro n h1; exact ⟨n, Nat.le_refl _, h1⟩
  | succ d ih =>
    intro n h1
    by_cases h2 : f n < t
    · obtain ⟨m, h3, h4⟩ := h n h2
      obtain ⟨k, h5, h6⟩ := ih m (by omega)
      exact ⟨k, by omega, h6⟩
    · exact ⟨n, Nat.le_refl _, by omega⟩

/-- The events so far only grow. -/
theorem Exec.grow (he : Exec step s a e) (n k : Nat) : ∃ es, e (n + k) = e n ++ es := by
  induction k with
  | zero => exact ⟨[], by simp⟩
  | succ k ih =>
    obtain ⟨es, h⟩ := ih
    rw [← Nat.add_assoc]
    cases ha : a (n + k) with
    | none => rw [(he.idle _ ha).2]; exact ⟨es, h⟩
    | some x =>
      obtain ⟨fs, _, h1⟩ := he.next _ x ha
      exact ⟨es ++ fs, by rw [h1, h, List.append_assoc]⟩

theorem Exec.grow_le (he : Exec step s a e) {n m : Nat} (h : n ≤ m) : ∃ es, e m = e n ++ es := by
  obtain ⟨k, rfl⟩ := Nat.exists_eq_add_of_le h
  exact he.grow n k

/-- A schedule that repeats itself is fair to the classes of the actions that occur in it. -/
theorem fair_periodic {c : Action → Bool} (p r : Nat) (x : Action) (hp : 0 < p) (hc : c x = true) (ha : ∀ k, a (p * k + r) = some x) : Fair step s a c := by
  intro _ n
  refine ⟨p * n + r, ?_, x, hc, ha n⟩
  have : 1 * n ≤ p * n := Nat.mul_le_mul_right n hp
  omega

/-- The actions `as` one after the other, then nothing any more. -/
def play (step : State → Action → Option (State × List Event)) (s0 : State) (as : List Action) : Nat → State × List Event
  | 0 => (s0, [])
  | n + 1 => match as[n]? with
    | none => play step s0 as n
    | some x => match step (play step s0 as n).1 x with
      | none => play step s0 as n
      | some r => (r.1, (play step s0 as n).2 ++ r.2)

theorem play_exec (s0 : State) (as : List Action) (h : ∀ i : Fin as.length, (step (play step s0 as i).1 as[i]).isSome = true) :
    Exec step (fun n => (play step s0 as n).1) (fun n => as[n]?) (fun n => (play step s0 as n).2) := by
  refine ⟨rfl, fun n hn => ?_, fun n x hn => ?_⟩
  · simp only [play, hn, and_self]
  · obtain ⟨hl, hx⟩ := List.getElem?_eq_some_iff.mp hn
    have h1 := h ⟨n, hl⟩
    simp only [Fin.getElem_fin, hx] at h1
    obtain ⟨r, hr⟩ := Option.isSome_iff_exists.mp h1
    exact ⟨r.2, by simp only [play, hn, hr], by simp only [play, hn, hr]⟩

theorem play_end (s0 : State) (as : List Action) (n : Nat) (hn : as.length ≤ n) : play step s0 as n = play step s0 as as.length := by
  obtain ⟨k, rfl⟩ := Nat.exists_eq_add_of_le hn
  clear hn
  induction k with
  | zero => rfl
  | succ k ih =>
    rw [← ih, ← Nat.add_assoc]
    simp only [play, List.getElem?_eq_none (show as.length ≤ as.length + k by omega)]

/-- Doing nothing any more is fair to what is not possible any more. -/
theorem play_fair (s0 : State) (as : List Action) (c : Action → Bool) (h : ∀ x, c x = true → step (play step s0 as as.length).1 x = none) : Fair step (fun n => (play step s0 as n).1) (fun n => as[n]?) c := by
  intro ho
  obtain ⟨m, hm, x, hx, hs⟩ := ho as.length
  simp only [play_end s0 as m hm, h x hx] at hs
  cases hs

/-- What holds at the beginning and is kept by every action taken holds all the time. -/
theorem Exec.holds (he : Exec step s a e) (R : State → List Event → Prop) (h0 : R (s 0) [])
    (hstep : ∀ n x es, a n = some x → R (s n) (e n) → step (s n) x = some (s (n + 1), es) → R (s (n + 1)) (e n ++ es)) : ∀ n, R (s n) (e n) := by
  intro n
  induction n with
  | zero => rw [he.start]; exact h0
  | succ n ih =>
    cases ha : a n with
    | none => rw [(he.idle n ha).1, (he.idle n ha).2]; exact ih
    | some x =>
      obtain ⟨es, hs, h1⟩ := he.next n x ha
      rw [h1]
      exact hstep n x es ha ih hs

section
variable {State' Action' Event' : Type} {step' : State' → Action' → Option (State' × List Event')} {proj : State → State'} {pa : State → Action → Option Action'}

/-- The events of a part of a machine. -/
def partTrace (step' : State' → Action' → Option (State' × List Event')) (s : Nat → State') (a : Nat → Option Action') : Nat → List Event'
  | 0 => []
  | n + 1 => match a n with
    | none => partTrace step' s a n
    | some y => match step' (s n) y with
      | none => partTrace step' s a n
      | some r => partTrace step' s a n ++ r.2

/-- An execution of a machine is an execution of each of its parts. `proj`: the part's state, `pa`: what an action means for the part. -/
theorem Exec.project (he : Exec step s a e)
    (h : ∀ n x es, a n = some x → step (s n) x = some (s (n + 1), es) → match pa (s n) x with
      | none => proj (s (n + 1)) = proj (s n)
      | some y => ∃ fs, step' (proj (s n)) y = some (proj (s (n + 1)), fs)) :
    Exec step' (fun n => proj (s n)) (fun n => (a n).bind (pa (s n))) (partTrace step' (fun n => proj (s n)) (fun n => (a n).bind (pa (s n)))) := by
  refine ⟨rfl, fun n hn => ?_, fun n y hn => ?_⟩
  · refine ⟨?_, by simp only [partTrace, hn]⟩
    cases ha : a n with
    | none => simp only [(he.idle n ha).1]
    | some x =>
      obtain ⟨es, hs, _⟩ := he.next n x ha
      have h1 := h n x es ha hs
      simp only [ha, Option.bind_some] at hn
      rw [hn] at h1
      exact h1
  · cases ha : a n with
    | none => simp [ha] at hn
    | some x =>
      obtain ⟨es, hs, _⟩ := he.next n x ha
      have h1 := h n x es ha hs
      have hn' := hn
      simp only [ha, Option.bind_some] at hn
      rw [hn] at h1
      obtain ⟨fs, h1⟩ := h1
      exact ⟨fs, h1, by simp only [partTrace, hn', h1]⟩

/-- A fair execution of a machine is fair to its parts. -/
theorem Fair.project {c : Action → Bool} (hf : Fair step s a c) (c' : Action' → Bool)
    (hen : ∀ n y, c' y = true → (step' (proj (s n)) y).isSome = true → ∃ x, c x = true ∧ (step (s n) x).isSome = true)
    (hdo : ∀ n x, c x = true → a n = some x → ∃ y, c' y = true ∧ pa (s n) x = some y) :
    Fair step' (fun n => proj (s n)) (fun n => (a n).bind (pa (s n))) c' := by
  intro ho n
  obtain ⟨m, hm, x, hx, ha⟩ := hf (fun k => by
    obtain ⟨m, hm, y, hy, h1⟩ := ho k
    exact ⟨m, hm, hen m y hy h1⟩) n
  obtain ⟨y, hy, h1⟩ := hdo m x hx ha
  exact ⟨m, hm, y, hy, by simp only [ha, Option.bind_some, h1]⟩

end

end StAsio
