import Verif.Lemmas.UdpPipe2
/-!
Lemmas for C96: runs of the whole system and runs of one sender.
-/
set_option autoImplicit false
namespace StAsio

theorem mem_upArrived {es : List UPEv} {d : Bytes} (hd : d ∈ upArrived es) : ∃ k, UPEv.arrived k d ∈ es := by
  induction es with
  | nil => cases hd
  | cons e es ih =>
    cases e with
    | arrived k d' =>
      rcases List.mem_cons.1 hd with rfl | hd
      · exact ⟨k, by simp⟩
      · obtain ⟨k, hk⟩ := ih hd; exact ⟨k, by simp [hk]⟩
    | _ => obtain ⟨k, hk⟩ := ih hd; exact ⟨k, by simp [hk]⟩

/-- No kernel finds a sending socket invalid. -/
def UPAct.Sound : UPAct → Prop
  | .tx _ (.complete _ false true) => False
  | _ => True

theorem Ux.fatal_run {tas : List UAct} (h : ∀ a ∈ tas, uFatal false a = false) : tas.foldl uFatal false = false := by
  induction tas with
  | nil => rfl
  | cons a tas ih => rw [List.foldl_cons, h a (by simp)]; exact ih (fun b hb => h b (by simp [hb]))

/-- The actions of one sender among those of all. -/
theorem UPipe.tx_run {me : Nat} {u : Cfg} {c : MCfg} {limit : Nat} {s s' : UPipe} {as : List UPAct} {es : List UPEv} (h : UPipe.Run me u c limit s as s' es) {P : UAct → Prop} (ha : ∀ a ∈ as, ∀ j x, a = .tx j x → P x) (i : Nat) :
    ∃ tas, Ux.Run false (s.tx i) tas (s'.tx i) (upTx i es) ∧ ∀ a ∈ tas, P a := by
  induction h with
  | nil => exact ⟨[], Ux.Run.nil _, by simp⟩
  | snoc s1 s2 as a es fs _ hs ih =>
    obtain ⟨tas, g1, g2⟩ := ih (fun x hx => ha x (by simp [hx]))
    have hsa := ha a (by simp)
    have same : s2.tx = s1.tx → (∀ i, upTx i fs = []) → ∃ tas, Ux.Run false (s.tx i) tas (s2.tx i) (upTx i (es ++ fs)) ∧ ∀ a ∈ tas, P a := by
      intro e1 e2
      rw [e1, upTx_append, e2, List.append_nil]
      exact ⟨tas, g1, g2⟩
    cases a with
    | tx j a =>
      simp only [UPipe.step] at hs
      split at hs
      · rw [Option.map_eq_some_iff] at hs
        obtain ⟨⟨t, tes⟩, h1, h2⟩ := hs
        simp only [Prod.mk.injEq] at h2
        obtain ⟨rfl, rfl⟩ := h2
        rw [upTx_append, upTx_append, (up_left _ _ _).1, upTx_tx, List.append_nil]
        by_cases hj : i = j
        · subst hj
          simp only [if_true]
          refine ⟨tas ++ [a], Ux.Run.snoc _ _ _ _ _ _ _ g1 h1, ?_⟩
          intro b hb
          rw [List.mem_append, List.mem_singleton] at hb
          rcases hb with hb | rfl
          · exact g2 b hb
          · exact hsa _ _ rfl
        · simp only [if_neg hj, if_neg (Ne.symm hj), List.append_nil]
          exact ⟨tas, g1, g2⟩
      · cases hs
    | arrive k =>
      simp only [UPipe.step] at hs
      (repeat' split at hs) <;> cases hs
      exact same rfl (fun _ => rfl)
    | stranger d =>
      simp only [UPipe.step] at hs
      cases hs
      exact same rfl (fun _ => rfl)
    | recv =>
      simp only [UPipe.step] at hs
      split at hs
      · split at hs
        · cases hs
        · split at hs
          · cases hs; exact same rfl (fun _ => rfl)
          · rw [Option.map_eq_some_iff] at hs
            obtain ⟨r, _, hs⟩ := hs
            cases hs
            exact same rfl (fun i => (up_rx i _).1)
      · cases hs
    | rx a =>
      simp only [UPipe.step] at hs
      split at hs
      · rw [Option.map_eq_some_iff] at hs
        obtain ⟨r, _, hs⟩ := hs
        cases hs
        exact same rfl (fun i => (up_rx i _).1)
      · cases hs

theorem UPAct.goes_sound {p : Bool} {a : UPAct} (h : a.Goes p) : a.Sound := by
  unfold UPAct.Sound
  split
  · simp [UPAct.Goes] at h
  · trivial

theorem UPAct.sound_fatal {i : Nat} {a : UAct} (h : (UPAct.tx i a).Sound) : uFatal false a = false := by
  unfold uFatal
  split
  · exact absurd h (by simp [UPAct.Sound])
  · rfl
  · rfl

theorem Ux.goes_plain {s s' : Ux} {a : UAct} {es : List UEv} {i : Nat} {p : Bool} (ha : (UPAct.tx i a).Goes p) (hs : s.step false a = some (s', es)) : ∀ ev ∈ es, UPlainEv ev := by
  have hpr : ∀ m r, ∀ ev ∈ uPromise m r, UPlainEv ev := by
    intro m r ev hev
    rcases uPromise_cases m r with ⟨h, _⟩ | ⟨p, _, h⟩ <;> rw [h] at hev <;> simp at hev
    subst hev; trivial
  cases a with
  | strand x y =>
    simp only [Ux.step, Ux.strand] at hs
    (repeat' split at hs) <;> cases hs <;> simp [UPlainEv]
  | handler i =>
    simp only [Ux.step, Option.bind_eq_bind, Option.bind_eq_some_iff] at hs
    obtain ⟨d, _, hs⟩ := hs
    simp only [Ux.handler] at hs
    (repeat' split at hs) <;> cases hs <;> (intro ev hev; (try rcases List.mem_append.mp hev with hev | hev)) <;>
      first | exact hpr _ _ ev hev | (rw [List.mem_singleton.mp hev]; trivial) | cases hev
  | complete i ok fatal =>
    simp only [Ux.step, Option.bind_eq_bind, Option.bind_eq_some_iff] at hs
    obtain ⟨w, _, hs⟩ := hs
    cases hs; simp
  | loadReady | loadFlag | runPosted | timerCC | resumeCheck =>
    simp only [Ux.step] at hs
    split at hs <;> cases hs <;> simp
  | _ => simp [UPAct.Goes] at ha

theorem Ux.goes_run_plain {s s' : Ux} {as : List UAct} {es : List UEv} {p : Bool} (ha : ∀ a ∈ as, (UPAct.tx 0 a).Goes p) (hs : Ux.Run false s as s' es) : ∀ ev ∈ es, UPlainEv ev := by
  induction hs with
  | nil => simp
  | snoc s1 s2 as a es fs _ hs ih =>
    intro ev hev
    rcases List.mem_append.1 hev with hev | hev
    · exact ih (fun x hx => ha x (by simp [hx])) ev hev
    · exact Ux.goes_plain (ha a (by simp)) hs ev hev

/-- No kernel refuses a datagram. -/
def UAct.passes : UAct → Prop
  | .complete _ false _ => False
  | _ => True

theorem Ux.goes_passes {i : Nat} {p : Bool} {a : UAct} (h : (UPAct.tx i a).Goes p) : a.passes := by
  unfold UAct.passes
  split
  · simp [UPAct.Goes] at h
  · trivial

/-- If the kernel refuses nothing, everything is sent. -/
theorem Ux.passes_run {s s' : Ux} {as : List UAct} {es : List UEv} (hr : Ux.Run false s as s' es) (ha : ∀ a ∈ as, a.passes) (h0 : ∀ d ∈ s.dones, d.ok = true) :
    (∀ d ∈ s'.dones, d.ok = true) ∧ uSent es = (uOutcomes es).map (fun o => o.1) := by
  induction hr with
  | nil => exact ⟨h0, rfl⟩
  | snoc s1 s2 as a es fs _ hs ih =>
    obtain ⟨i1, i2⟩ := ih (fun x hx => ha x (by simp [hx]))
    have hpa := ha a (by simp)
    rw [uSent_append, uOutcomes_append, List.map_append, i2]
    suffices (∀ d ∈ s2.dones, d.ok = true) ∧ uSent fs = (uOutcomes fs).map (fun o => o.1) from ⟨this.1, by rw [this.2]⟩
    cases a with
    | complete i ok fatal =>
      cases ok with
      | false => exact absurd hpa (by simp [UAct.passes])
      | true =>
        simp only [Ux.step, Option.bind_eq_bind, Option.bind_eq_some_iff] at hs
        obtain ⟨w, _, hs⟩ := hs
        cases hs
        refine ⟨?_, rfl⟩
        intro d hd
        rcases List.mem_append.1 hd with hd | hd
        · exact i1 d hd
        · rw [List.mem_singleton.1 hd]
    | handler i =>
      simp only [Ux.step, Option.bind_eq_bind, Option.bind_eq_some_iff] at hs
      obtain ⟨d, hd, hs⟩ := hs
      have hok := i1 d (List.mem_of_getElem? hd)
      simp only [Ux.handler, hok, if_true] at hs
      (repeat' split at hs) <;> cases hs <;> refine ⟨fun d hd => i1 d (List.mem_of_mem_eraseIdx hd), ?_⟩
      · rfl
      · rw [uSent_append, uOutcomes_append, uSent_promise, (uOther_promise _ _).2.2.2]; rfl
    | strand x y =>
      simp only [Ux.step, Ux.strand, Bool.false_and] at hs
      (repeat' split at hs) <;> cases hs <;> first
        | exact ⟨i1, rfl⟩
        | (rename_i hc; simp at hc)
    | onClose =>
      simp only [Ux.step] at hs
      split at hs <;> cases hs
      refine ⟨i1, ?_⟩
      cases s1.cur with
      | none => rfl
      | some m => simp [uSent_promise, (uOther_promise _ _).2.2.2]
    | pop =>
      simp only [Ux.step] at hs
      split at hs <;> cases hs
      · exact ⟨i1, rfl⟩
      · refine ⟨i1, ?_⟩
        rw [uSent_append, uOutcomes_append, uSent_promises, (uOther_promises _ _).2.2.2]; rfl
    | popAll =>
      simp only [Ux.step] at hs
      cases hs
      refine ⟨i1, ?_⟩
      rw [uSent_append, uOutcomes_append, uSent_promises, (uOther_promises _ _).2.2.2]; rfl
    | _ =>
      simp only [Ux.step] at hs
      (repeat' split at hs) <;> cases hs <;> exact ⟨i1, rfl⟩

/-- Empty messages are refused. -/
theorem Ux.accepted_nonEmpty {s s' : Ux} {as : List UAct} {es : List UEv} (hr : Ux.Run false s as s' es) : ∀ m ∈ uAccepted es, m.data ≠ [] := by
  induction hr with
  | nil => simp [uAccepted]
  | snoc s1 s2 as a es fs _ hs ih =>
    intro m hm
    rw [uAccepted_append, List.mem_append] at hm
    rcases hm with hm | hm
    · exact ih m hm
    · by_cases hsend : ∃ x prior fits, a = .send x prior fits
      · obtain ⟨x, prior, fits, rfl⟩ := hsend
        simp only [Ux.step] at hs
        split at hs
        · cases hs; cases hm
        · next hne =>
          (repeat' split at hs) <;> cases hs <;> first
            | (cases hm; done)
            | (simp only [uAccepted, List.mem_singleton] at hm
               subst hm
               simpa using hne)
      · have hno : uAccepted fs = [] := by
          cases a with
          | send x prior fits => exact absurd ⟨x, prior, fits, rfl⟩ hsend
          | complete i ok fatal =>
            simp only [Ux.step, Option.bind_eq_bind, Option.bind_eq_some_iff] at hs
            obtain ⟨w, _, hs⟩ := hs
            cases hs; rfl
          | handler i =>
            simp only [Ux.step, Option.bind_eq_bind, Option.bind_eq_some_iff] at hs
            obtain ⟨d, hd, hs⟩ := hs
            simp only [Ux.handler] at hs
            (repeat' split at hs) <;> cases hs <;> first
              | rfl
              | (rw [uAccepted_append, (uOther_promise _ _).2.1]; rfl)
          | strand x y =>
            simp only [Ux.step, Ux.strand] at hs
            (repeat' split at hs) <;> cases hs <;> rfl
          | onClose =>
            simp only [Ux.step] at hs
            split at hs <;> cases hs
            cases s1.cur with
            | none => rfl
            | some m => simp [(uOther_promise _ _).2.1]
          | pop =>
            simp only [Ux.step] at hs
            split at hs <;> cases hs
            · rfl
            · rw [uAccepted_append, (uOther_promises _ _).2.1]; rfl
          | popAll =>
            simp only [Ux.step] at hs
            cases hs
            rw [uAccepted_append, (uOther_promises _ _).2.1]; rfl
          | _ =>
            simp only [Ux.step] at hs
            (repeat' split at hs) <;> cases hs <;> rfl
        rw [hno] at hm
        cases hm

theorem mine_prefix_rest {me : Nat} {L M : List (Nat × UMsg)} {ks : List Nat} (h : ks <+: mine me 0 L) : ∃ r, ks ++ r = mine me 0 (L ++ M) ∧ ∀ k ∈ r, ∃ x, (L ++ M)[k]? = some x ∧ x.2.peer = me := by
  obtain ⟨r, hr⟩ := h
  refine ⟨r ++ mine me (0 + L.length) M, by rw [mine_append, ← hr, List.append_assoc], ?_⟩
  intro k hk
  have : k ∈ mine me 0 (L ++ M) := by rw [mine_append, ← hr, List.append_assoc]; exact List.mem_append_right _ hk
  obtain ⟨_, x, h1, h2⟩ := mine_mem this
  exact ⟨x, by simpa using h1, h2⟩

theorem upAlone_run {me : Nat} {u : Cfg} {c : MCfg} {limit : Nat} {p : Bool} {s s' : UPipe} {as : List UPAct} {es : List UPEv} (h : UPipe.Run me u c limit s as s' es) (ha : ∀ a ∈ as, a.Goes p) : upAlone es := by
  induction h with
  | nil => intro d hd; cases hd
  | snoc s1 s2 as a es fs _ hs ih =>
    have ih := ih (fun x hx => ha x (by simp [hx]))
    have hga := ha a (by simp)
    intro d hd
    rcases List.mem_append.1 hd with hd | hd
    · exact ih d hd
    · cases a with
      | tx j a =>
        simp only [UPipe.step] at hs
        split at hs
        · rw [Option.map_eq_some_iff] at hs
          obtain ⟨r, _, hs⟩ := hs
          cases hs
          rcases List.mem_append.1 hd with hd | hd
          · simp at hd
          · rw [List.mem_map] at hd
            obtain ⟨_, _, hd⟩ := hd
            cases hd
        · cases hs
      | arrive k =>
        simp only [UPipe.step] at hs
        (repeat' split at hs) <;> cases hs
        simp at hd
      | stranger d => exact hga
      | recv =>
        simp only [UPipe.step] at hs
        split at hs
        · split at hs
          · cases hs
          · split at hs
            · cases hs; cases hd
            · rw [Option.map_eq_some_iff] at hs
              obtain ⟨r, _, hs⟩ := hs
              cases hs
              simp at hd
        · cases hs
      | rx a =>
        simp only [UPipe.step] at hs
        split at hs
        · rw [Option.map_eq_some_iff] at hs
          obtain ⟨r, _, hs⟩ := hs
          cases hs
          simp at hd
        · cases hs

theorem upAlone_append {es fs : List UPEv} (h1 : upAlone es) (h2 : upAlone fs) : upAlone (es ++ fs) := by
  intro d hd
  rcases List.mem_append.1 hd with hd | hd
  · exact h1 d hd
  · exact h2 d hd

/-- If only one socket sent. -/
theorem leftBy_only {i : Nat} {xs : List (Nat × UMsg)} (h : ∀ j, j ≠ i → leftBy j xs = []) : xs = (leftBy i xs).map (fun m => (i, m)) := by
  induction xs with
  | nil => rfl
  | cons x xs ih =>
    have hx : x.1 = i := by
      rcases Classical.em (x.1 = i) with hx | hx
      · exact hx
      · have := h x.1 hx
        simp [leftBy] at this
    have ih := ih (fun j hj => by
      have := h j hj
      rw [show x :: xs = [x] ++ xs from rfl, leftBy_append] at this
      exact (List.append_eq_nil_iff.mp this).2)
    rw [show x :: xs = [x] ++ xs from rfl, leftBy_append, List.map_append, ← ih]
    obtain ⟨j, m⟩ := x
    simp only at hx
    subst hx
    simp [leftBy]

theorem dgShown_fits {n : Nat} {ds : List Bytes} (h : ∀ d ∈ ds, d.length ≤ n ∧ d ≠ []) : dgShown n ds = ds := by
  unfold dgShown
  have : ds.map (fun d => d.take n) = ds := by
    conv => rhs; rw [← List.map_id ds]
    exact List.map_congr_left (fun d hd => List.take_of_length_le (h d hd).1)
  rw [this, nonEmpty_id (fun d hd => (h d hd).2)]

end StAsio
