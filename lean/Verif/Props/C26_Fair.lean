import Verif.Lemmas.Fair
import Verif.Props.C25_C27_RecvDispatch
/-!
# C26: no received message waits for ever, however much is received

Infinite executions of Model/RecvDispatch.lean, in which messages may arrive for ever.
-/
set_option autoImplicit false
namespace StAsio

/-- No message is popped by the user, no reset(), and the retry timer is not lost (closing the socket while a message is refused). -/
def RAct.steady : RAct → Bool
  | .loseDispatch | .pop | .popAll | .reset => false
  | _ => true

theorem Rx.step_steady {limit : Nat} {s s' : Rx} {a : RAct} {es : List REv} (ha : a.steady = true) (hl : s.dlost = false) (hs : s.step limit a = some (s', es)) :
    s'.dlost = false ∧ ∀ e ∈ es, RPlainEv e := by
  cases a with
  | loseDispatch => simp [RAct.steady] at ha
  | pop => simp [RAct.steady] at ha
  | popAll => simp [RAct.steady] at ha
  | reset => simp [RAct.steady] at ha
  | _ =>
    simp only [Rx.step] at hs
    (repeat' split at hs) <;> cases hs <;> simp [hl, RPlainEv]

/-- Only the acceptance of a message empties the receive side. -/
theorem Rx.step_waits {limit : Nat} {s s' : Rx} {a : RAct} {es : List REv} (ha : a.steady = true) (hr : a ≠ .ret true) (hs : s.step limit a = some (s', es)) :
    rAccepted es = [] := by
  cases a with
  | ret ok =>
    cases ok with
    | true => exact absurd rfl hr
    | false =>
      simp only [Rx.step] at hs
      (repeat' split at hs) <;> cases hs <;> simp_all [rAccepted]
  | pop => simp [RAct.steady] at ha
  | popAll => simp [RAct.steady] at ha
  | _ =>
    simp only [Rx.step] at hs
    (repeat' split at hs) <;> cases hs <;> simp [rAccepted]

/-- What a step of a socket with something to dispatch can do to the dispatching strand. -/
structure Rx.Busy (s : Rx) : Prop where
  inv : s.Inv
  lost : s.dlost = false
  some : s.cur.toList ++ s.buf.items ≠ []

theorem Rx.step_busy {limit : Nat} {s s' : Rx} {a : RAct} {es : List REv} (h : s.Busy) (ha : a.steady = true ∧ a ≠ .ret true) (hs : s.step limit a = some (s', es)) : s'.Busy := by
  have h1 := Rx.step_inv h.inv hs
  have h2 := Rx.step_steady ha.1 h.lost hs
  refine ⟨h1.1, h2.1, ?_⟩
  have h3 := rMonitor_plain h1.2 h2.2
  rw [Rx.step_waits ha.1 ha.2 hs] at h3
  intro hc
  simp only [Rx.ideal, List.nil_append] at h3
  rw [hc] at h3
  exact h.some (List.append_eq_nil_iff.mp h3).1

theorem Rx.run_got {limit : Nat} {t t' : Rx} {es : List REv} (hb : t.Busy) (h3 : t.pc = .idle) (hs : t.step limit .run = some (t', es)) : t'.pc = .got := by
  have h1 := hb.some
  have h2 := hb.inv.idle h3
  simp only [Rx.step] at hs
  split at hs
  · cases hs
  split at hs
  · cases hs; rfl
  · rename_i h5
    have h6 : t.cur = none := by
      have : t.dispatching = false := by simpa using h5
      rw [this] at h2
      simpa using h2.symm
    rw [h6] at h1
    cases hq : t.buf.items with
    | nil => simp [hq] at h1
    | cons m l => simp [Q.tryDequeue, hq] at hs; rw [← hs.1]

theorem Rx.got_keep {limit : Nat} {t t' : Rx} {x : RAct} {es : List REv} (hb : t.Busy) (hp : t.pc = .got) (hx : x.steady = true ∧ x ≠ .ret true)
    (hs : t.step limit x = some (t', es)) : (t'.pc = .got) ∨ (t'.pc = .handling) := by
  have := hb.inv.got
  cases x <;> simp only [Rx.step] at hs <;> (repeat' split at hs) <;> simp_all [RAct.steady] <;> (try (cases hs.1; simp_all)) <;> (try (obtain ⟨rfl, _⟩ := hs; simp_all))

theorem Rx.got_next {limit : Nat} {t t' : Rx} {es : List REv} (hb : t.Busy) (hp : t.pc = .got) (hs : t.step limit .begin = some (t', es)) : t'.pc = .handling := by
  have := hb.inv.got
  simp only [Rx.step] at hs
  (repeat' split at hs) <;> cases hs <;> simp_all

theorem Rx.got_can (limit : Nat) {t : Rx} (hp : t.pc = .got) : (t.step limit .begin).isSome = true := by
  simp only [Rx.step]
  (repeat' split) <;> simp_all

theorem Rx.timer_keep {limit : Nat} {t t' : Rx} {x : RAct} {es : List REv} (hb : t.Busy) (hp : t.pc = .idle ∧ t.posted = 0 ∧ t.dispatching = true ∧ t.dtimer = true) (hx : x.steady = true ∧ x ≠ .ret true)
    (hs : t.step limit x = some (t', es)) : (t'.pc = .idle ∧ t'.posted = 0 ∧ t'.dispatching = true ∧ t'.dtimer = true) ∨ (t'.pc = .idle ∧ 0 < t'.posted) := by
  have := hb.inv.got
  cases x <;> simp only [Rx.step] at hs <;> (repeat' split at hs) <;> simp_all [RAct.steady] <;> (try (cases hs.1; simp_all)) <;> (try (obtain ⟨rfl, _⟩ := hs; simp_all))

theorem Rx.timer_next {limit : Nat} {t t' : Rx} {es : List REv} (hb : t.Busy) (hp : t.pc = .idle ∧ t.posted = 0 ∧ t.dispatching = true ∧ t.dtimer = true) (hs : t.step limit .dtimer = some (t', es)) : t'.pc = .idle ∧ 0 < t'.posted := by
  have := hb.inv.got
  simp only [Rx.step] at hs
  (repeat' split at hs) <;> cases hs <;> simp_all

theorem Rx.timer_can (limit : Nat) {t : Rx} (hp : t.pc = .idle ∧ t.posted = 0 ∧ t.dispatching = true ∧ t.dtimer = true) : (t.step limit .dtimer).isSome = true := by
  simp only [Rx.step]
  (repeat' split) <;> simp_all

theorem Rx.moved_keep {limit : Nat} {t t' : Rx} {x : RAct} {es : List REv} (hb : t.Busy) (hp : t.pc = .idle ∧ t.posted = 0 ∧ t.dispatching = false ∧ t.rd = .moved) (hx : x.steady = true ∧ x ≠ .ret true)
    (hs : t.step limit x = some (t', es)) : (t'.pc = .idle ∧ t'.posted = 0 ∧ t'.dispatching = false ∧ t'.rd = .moved) ∨ (t'.pc = .idle ∧ 0 < t'.posted) := by
  have := hb.inv.got
  cases x <;> simp only [Rx.step] at hs <;> (repeat' split at hs) <;> simp_all [RAct.steady] <;> (try (cases hs.1; simp_all)) <;> (try (obtain ⟨rfl, _⟩ := hs; simp_all))

theorem Rx.moved_next {limit : Nat} {t t' : Rx} {es : List REv} (hb : t.Busy) (hp : t.pc = .idle ∧ t.posted = 0 ∧ t.dispatching = false ∧ t.rd = .moved) (hs : t.step limit .loadDisp = some (t', es)) : t'.pc = .idle ∧ 0 < t'.posted := by
  have := hb.inv.got
  simp only [Rx.step] at hs
  (repeat' split at hs) <;> cases hs <;> simp_all

theorem Rx.moved_can (limit : Nat) {t : Rx} (hp : t.pc = .idle ∧ t.posted = 0 ∧ t.dispatching = false ∧ t.rd = .moved) : (t.step limit .loadDisp).isSome = true := by
  simp only [Rx.step]
  (repeat' split) <;> simp_all

theorem Rx.refused_keep {limit : Nat} {t t' : Rx} {x : RAct} {es : List REv} (hb : t.Busy) (hp : t.pc = .refused) (hx : x.steady = true ∧ x ≠ .ret true)
    (hs : t.step limit x = some (t', es)) : (t'.pc = .refused) ∨ (t'.pc = .idle) := by
  have := hb.inv.got
  cases x <;> simp only [Rx.step] at hs <;> (repeat' split at hs) <;> simp_all [RAct.steady] <;> (try (cases hs.1; simp_all)) <;> (try (obtain ⟨rfl, _⟩ := hs; simp_all))

theorem Rx.refused_next {limit : Nat} {t t' : Rx} {es : List REv} (hb : t.Busy) (hp : t.pc = .refused) (hs : t.step limit .dis = some (t', es)) : t'.pc = .idle := by
  have := hb.inv.got
  simp only [Rx.step] at hs
  (repeat' split at hs) <;> cases hs <;> simp_all

theorem Rx.refused_can (limit : Nat) {t : Rx} (hp : t.pc = .refused) : (t.step limit .dis).isSome = true := by
  simp only [Rx.step]
  (repeat' split) <;> simp_all

theorem Rx.posting_keep {limit : Nat} {t t' : Rx} {x : RAct} {es : List REv} (hb : t.Busy) (hp : t.pc = .posting) (hx : x.steady = true ∧ x ≠ .ret true)
    (hs : t.step limit x = some (t', es)) : (t'.pc = .posting) ∨ (t'.pc = .idle) := by
  have := hb.inv.got
  cases x <;> simp only [Rx.step] at hs <;> (repeat' split at hs) <;> simp_all [RAct.steady] <;> (try (cases hs.1; simp_all)) <;> (try (obtain ⟨rfl, _⟩ := hs; simp_all))

theorem Rx.posting_next {limit : Nat} {t t' : Rx} {es : List REv} (hb : t.Busy) (hp : t.pc = .posting) (hs : t.step limit .dis = some (t', es)) : t'.pc = .idle := by
  have := hb.inv.got
  simp only [Rx.step] at hs
  (repeat' split at hs) <;> cases hs <;> simp_all

theorem Rx.posting_can (limit : Nat) {t : Rx} (hp : t.pc = .posting) : (t.step limit .dis).isSome = true := by
  simp only [Rx.step]
  (repeat' split) <;> simp_all

theorem Rx.clearing_keep {limit : Nat} {t t' : Rx} {x : RAct} {es : List REv} (hb : t.Busy) (hp : t.pc = .clearing) (hx : x.steady = true ∧ x ≠ .ret true)
    (hs : t.step limit x = some (t', es)) : (t'.pc = .clearing) ∨ (t'.pc = .posting) := by
  have := hb.inv.got
  cases x <;> simp only [Rx.step] at hs <;> (repeat' split at hs) <;> simp_all [RAct.steady] <;> (try (cases hs.1; simp_all)) <;> (try (obtain ⟨rfl, _⟩ := hs; simp_all))

theorem Rx.clearing_next {limit : Nat} {t t' : Rx} {es : List REv} (hb : t.Busy) (hp : t.pc = .clearing) (hs : t.step limit .dis = some (t', es)) : t'.pc = .posting := by
  have := hb.inv.got
  simp only [Rx.step] at hs
  (repeat' split at hs) <;> cases hs <;> simp_all

theorem Rx.clearing_can (limit : Nat) {t : Rx} (hp : t.pc = .clearing) : (t.step limit .dis).isSome = true := by
  simp only [Rx.step]
  (repeat' split) <;> simp_all

theorem Rx.idle_keep {limit : Nat} {t t' : Rx} {x : RAct} {es : List REv} (hb : t.Busy) (hp : t.pc = .idle ∧ 0 < t.posted)
    (hs : t.step limit x = some (t', es)) : (t'.pc = .idle ∧ 0 < t'.posted) ∨ t'.pc = .got := by
  have h3 := hp.1
  have h4 := hp.2
  cases x with
  | run => exact .inr (Rx.run_got hb h3 hs)
  | ret ok => simp [Rx.step, h3] at hs
  | _ =>
    refine .inl ?_
    simp only [Rx.step] at hs
    (repeat' split at hs) <;> first | (cases hs; done) | (cases hs; exact ⟨h3, h4⟩) | (cases hs; exact ⟨h3, Nat.succ_pos _⟩) | (cases hs; refine ⟨h3, ?_⟩; simp only; split <;> omega) | (simp_all; done)

section
variable {limit : Nat} {s : Nat → Rx} {a : Nat → Option RAct} {e : Nat → List REv}

/-- If no message is accepted any more although some are there, then on_msg_handle is called again and again. -/
theorem Rx.called (he : Exec (Rx.step limit) s a e) {n0 : Nat} (hok : ∀ n x, n0 ≤ n → a n = some x → x.steady = true ∧ x ≠ .ret true) (hI : ∀ n, n0 ≤ n → (s n).Busy)
    (f1 : Fair (Rx.step limit) s a (· == .loadDisp)) (f2 : Fair (Rx.step limit) s a (· == .run)) (f3 : Fair (Rx.step limit) s a (· == .begin))
    (f4 : Fair (Rx.step limit) s a (· == .dis)) (f5 : Fair (Rx.step limit) s a (· == .dtimer)) : ∀ n, n0 ≤ n → ∃ m, n ≤ m ∧ (s m).pc = .handling := by
  have e1 := he.leads (ok := fun _ x => x.steady = true ∧ x ≠ .ret true) hok hI f3 (fun t => t.pc = .got) (fun t => t.pc = .handling) (fun _ _ _ _ hb _ hp hx hs => Rx.got_keep hb hp hx hs)
    (fun t t' x es hb _ hp _ hc hs => Rx.got_next hb hp (by rw [← (by simpa using hc : x = .begin)]; exact hs)) (fun t _ hp => ⟨.begin, rfl, Rx.got_can limit hp⟩)
  have e3 := he.leads (ok := fun _ x => x.steady = true ∧ x ≠ .ret true) hok hI f5 (fun t => t.pc = .idle ∧ t.posted = 0 ∧ t.dispatching = true ∧ t.dtimer = true) (fun t => t.pc = .idle ∧ 0 < t.posted) (fun _ _ _ _ hb _ hp hx hs => Rx.timer_keep hb hp hx hs)
    (fun t t' x es hb _ hp _ hc hs => Rx.timer_next hb hp (by rw [← (by simpa using hc : x = .dtimer)]; exact hs)) (fun t _ hp => ⟨.dtimer, rfl, Rx.timer_can limit hp⟩)
  have e4 := he.leads (ok := fun _ x => x.steady = true ∧ x ≠ .ret true) hok hI f1 (fun t => t.pc = .idle ∧ t.posted = 0 ∧ t.dispatching = false ∧ t.rd = .moved) (fun t => t.pc = .idle ∧ 0 < t.posted) (fun _ _ _ _ hb _ hp hx hs => Rx.moved_keep hb hp hx hs)
    (fun t t' x es hb _ hp _ hc hs => Rx.moved_next hb hp (by rw [← (by simpa using hc : x = .loadDisp)]; exact hs)) (fun t _ hp => ⟨.loadDisp, rfl, Rx.moved_can limit hp⟩)
  have e5 := he.leads (ok := fun _ x => x.steady = true ∧ x ≠ .ret true) hok hI f4 (fun t => t.pc = .refused) (fun t => t.pc = .idle) (fun _ _ _ _ hb _ hp hx hs => Rx.refused_keep hb hp hx hs)
    (fun t t' x es hb _ hp _ hc hs => Rx.refused_next hb hp (by rw [← (by simpa using hc : x = .dis)]; exact hs)) (fun t _ hp => ⟨.dis, rfl, Rx.refused_can limit hp⟩)
  have e6 := he.leads (ok := fun _ x => x.steady = true ∧ x ≠ .ret true) hok hI f4 (fun t => t.pc = .posting) (fun t => t.pc = .idle) (fun _ _ _ _ hb _ hp hx hs => Rx.posting_keep hb hp hx hs)
    (fun t t' x es hb _ hp _ hc hs => Rx.posting_next hb hp (by rw [← (by simpa using hc : x = .dis)]; exact hs)) (fun t _ hp => ⟨.dis, rfl, Rx.posting_can limit hp⟩)
  have e7 := he.leads (ok := fun _ x => x.steady = true ∧ x ≠ .ret true) hok hI f4 (fun t => t.pc = .clearing) (fun t => t.pc = .posting) (fun _ _ _ _ hb _ hp hx hs => Rx.clearing_keep hb hp hx hs)
    (fun t t' x es hb _ hp _ hc hs => Rx.clearing_next hb hp (by rw [← (by simpa using hc : x = .dis)]; exact hs)) (fun t _ hp => ⟨.dis, rfl, Rx.clearing_can limit hp⟩)
  have e2 := he.leads (ok := fun _ x => x.steady = true ∧ x ≠ .ret true) hok hI f2 (fun t => t.pc = .idle ∧ 0 < t.posted) (fun t => t.pc = .got) (fun _ _ _ _ hb _ hp _ hs => Rx.idle_keep hb hp hs)
    (fun t t' x es hb _ hp _ hc hs => Rx.run_got hb hp.1 (by rw [← (by simpa using hc : x = .run)]; exact hs))
    (fun t _ hp => ⟨.run, rfl, by simp only [Rx.step]; rw [if_neg (by rw [hp.1]; have := hp.2; simp; omega)]; (repeat' split) <;> rfl⟩)
  have trans : ∀ {n : Nat} {P : Nat → Prop}, (∃ m, n ≤ m ∧ P m) → (∀ m, n ≤ m → P m → ∃ k, m ≤ k ∧ (s k).pc = .handling) → ∃ m, n ≤ m ∧ (s m).pc = .handling := by
    rintro n P ⟨m, h1, h2⟩ h3
    obtain ⟨k, h4, h5⟩ := h3 m h1 h2
    exact ⟨k, Nat.le_trans h1 h4, h5⟩
  have i1 : ∀ n, n0 ≤ n → (s n).pc = .idle ∧ 0 < (s n).posted → ∃ m, n ≤ m ∧ (s m).pc = .handling := by
    intro n hn hp
    obtain ⟨m, h1, h2⟩ := e2 n hn hp
    obtain ⟨k, h3, h4⟩ := e1 m (by omega) h2
    exact ⟨k, by omega, h4⟩
  have i2 : ∀ n, n0 ≤ n → (s n).pc = .idle → ∃ m, n ≤ m ∧ (s m).pc = .handling := by
    intro n hn hp
    have hb := hI n hn
    by_cases hpo : (s n).posted = 0
    · cases hd : (s n).dispatching with
      | true =>
        have := hb.inv.wakeD hp hd
        rw [hpo, hb.lost] at this
        exact trans (e3 n hn ⟨hp, hpo, hd, by simpa using this⟩) fun m hm => i1 m (Nat.le_trans hn hm)
      | false =>
        have hcur := hb.inv.idle hp
        rw [hd] at hcur
        have hc : (s n).cur = none := by simpa using hcur.symm
        have hbuf : (s n).buf.items ≠ [] := by have := hb.some; simpa [hc] using this
        have := hb.inv.wakeB hbuf
        rw [hpo, hp, hd] at this
        exact trans (e4 n hn ⟨hp, hpo, hd, by simpa using this⟩) fun m hm => i1 m (Nat.le_trans hn hm)
    · exact i1 n hn ⟨hp, Nat.pos_of_ne_zero hpo⟩
  intro n hn
  cases hp : (s n).pc with
  | idle => exact i2 n hn hp
  | got => exact e1 n hn hp
  | handling => exact ⟨n, Nat.le_refl _, hp⟩
  | clearing => exact trans (e7 n hn hp) fun m hm hp => trans (e6 m (Nat.le_trans hn hm) hp) fun k hk => i2 k (Nat.le_trans (Nat.le_trans hn hm) hk)
  | posting => exact trans (e6 n hn hp) fun m hm => i2 m (Nat.le_trans hn hm)
  | refused => exact trans (e5 n hn hp) fun m hm => i2 m (Nat.le_trans hn hm)

/-- What the ideal dispatcher says about a fair execution. -/
theorem Rx.fair_order (he : Exec (Rx.step limit) s a e) (h0 : (s 0).Inv ∧ (s 0).dlost = false) (ha : ∀ n x, a n = some x → x.steady = true) (n : Nat) :
    ((s n).Inv ∧ (s n).dlost = false) ∧ (∀ ev ∈ e n, RPlainEv ev) ∧ (s 0).ideal.monitor (e n) = some (s n).ideal := by
  induction n with
  | zero => rw [he.start]; exact ⟨h0, by simp, rfl⟩
  | succ n ih =>
    cases hx : a n with
    | none => rw [(he.idle n hx).1, (he.idle n hx).2]; exact ih
    | some x =>
      obtain ⟨es, hs, h1⟩ := he.next n x hx
      have h2 := Rx.step_inv ih.1.1 hs
      have h3 := Rx.step_steady (ha n x hx) ih.1.2 hs
      refine ⟨⟨h2.1, h3.1⟩, ?_, ?_⟩
      · rw [h1]
        intro ev hev
        rcases List.mem_append.mp hev with hev | hev
        · exact ih.2.1 ev hev
        · exact h3.2 ev hev
      · rw [h1, rMonitor_append, ih.2.2]; exact h2.2

end

theorem rAccepted_append (x y : List REv) : rAccepted (x ++ y) = rAccepted x ++ rAccepted y := by
  induction x with
  | nil => rfl
  | cons ev es ih =>
    cases ev with
    | ret m ok => cases ok <;> simp [rAccepted, ih]
    | _ => simpa [rAccepted] using ih

/-- C26, for ever: messages may arrive for ever, links may go and come back (as long as no retry timer is lost by it), on_msg_handle may refuse messages. If none of the activities involved is put off for
ever -- the receiving chain after it stored messages, a posted do_dispatch_msg, do_dispatch_msg, the retry timer -- and on_msg_handle, called again and again, returns true again and again, then every
message received is accepted by on_msg_handle at some time, in the order of arrival.

Missing: when the retry timer is lost by closing the link, see `C26_fails_after_reconnect`. -/
theorem C26_no_starvation_partial (limit : Nat) (as0 : List RAct) (es0 : List REv) (s : Nat → Rx) (a : Nat → Option RAct) (e : Nat → List REv)
    (h0 : Rx.Run limit Rx.init as0 (s 0) es0) (hl : (s 0).dlost = false) (he : Exec (Rx.step limit) s a e)
    (ha : ∀ n x, a n = some x → x ≠ .loseDispatch ∧ x ≠ .pop ∧ x ≠ .popAll ∧ x ≠ .reset)
    (f1 : Fair (Rx.step limit) s a (· == .loadDisp)) (f2 : Fair (Rx.step limit) s a (· == .run)) (f3 : Fair (Rx.step limit) s a (· == .begin))
    (f4 : Fair (Rx.step limit) s a (· == .dis)) (f5 : Fair (Rx.step limit) s a (· == .dtimer)) (f6 : Fair (Rx.step limit) s a (· == .ret true)) (n : Nat) :
    ∃ m, (s 0).cur.toList ++ (s 0).buf.items ++ rReceived (e n) <+: rAccepted (e m) := by
  have ha : ∀ n x, a n = some x → x.steady = true := by
    intro n x hx
    have := ha n x hx
    cases x <;> simp_all [RAct.steady]
  have hord := Rx.fair_order he ⟨(Rx.run_inv Rx.init_inv h0).1, hl⟩ ha
  have hlist : ∀ n, (s 0).cur.toList ++ (s 0).buf.items ++ rReceived (e n) = rAccepted (e n) ++ (s n).cur.toList ++ (s n).buf.items :=
    fun n => rMonitor_plain (hord n).2.2 (hord n).2.1
  have hgrow : ∀ n m, n ≤ m → rReceived (e n) <+: rReceived (e m) ∧ rAccepted (e n) <+: rAccepted (e m) := by
    intro n m hm
    obtain ⟨es, h⟩ := he.grow_le hm
    rw [h, rReceived_append, rAccepted_append]
    exact ⟨List.prefix_append _ _, List.prefix_append _ _⟩
  -- messages that are there are accepted
  have hacc : ∀ n, (s n).cur.toList ++ (s n).buf.items ≠ [] → ∃ m, n ≤ m ∧ a m = some (.ret true) := by
    intro n hn
    apply Classical.byContradiction
    intro hno
    have hok : ∀ m x, n ≤ m → a m = some x → x.steady = true ∧ x ≠ .ret true := fun m x hm hx => ⟨ha m x hx, fun hc => hno ⟨m, hm, by rw [hx, hc]⟩⟩
    have hI := he.stays (ok := fun _ x => x.steady = true ∧ x ≠ .ret true) hok (J := fun _ => True) (fun _ _ => trivial) Rx.Busy ⟨(hord n).1.1, (hord n).1.2, hn⟩ (fun t t' x es _ _ hb hx hs => Rx.step_busy hb hx hs)
    have hcall := Rx.called he hok hI f1 f2 f3 f4 f5
    obtain ⟨m, h1, x, h2, h3⟩ := f6 (fun k => by
      obtain ⟨m, h1, h2⟩ := hcall (n + k) (by omega)
      refine ⟨m, by omega, .ret true, rfl, ?_⟩
      have := (hI m (by omega)).inv.handling h2
      simp only [Rx.step, h2]
      cases hc : (s m).cur with
      | none => simp [hc] at this
      | some b => simp) n
    exact (hok m x h1 h3).2 (by simpa using h2)
  obtain ⟨m, h1, h2⟩ := reaches (f := fun m => (rAccepted (e m)).length) (t := ((s 0).cur.toList ++ (s 0).buf.items ++ rReceived (e n)).length) (fun m hm => by
    by_cases hmn : (s (max m n)).cur.toList ++ (s (max m n)).buf.items = []
    · -- everything received by then was accepted
      refine ⟨max m n, by omega, ?_⟩
      have h3 := hlist (max m n)
      rw [List.append_assoc (rAccepted _), hmn, List.append_nil] at h3
      have h4 := (hgrow n (max m n) (by omega)).1.length_le
      rw [← h3]
      simp only [List.length_append] at hm ⊢
      omega
    · obtain ⟨k, h3, h4⟩ := hacc _ hmn
      refine ⟨k + 1, by omega, ?_⟩
      obtain ⟨es, hs, h5⟩ := he.next k _ h4
      have h6 := (hgrow m k (by omega)).2.length_le
      have h7 : (rAccepted es).length = 1 := by
        simp only [Rx.step] at hs
        split at hs
        · cases hs
        · rename_i hp
          have hc := ((hord k).1.1.handling (by simpa using hp)).1
          split at hs
          · rename_i hn; rw [hn] at hc; cases hc
          · simp only [if_true, Option.some.injEq, Prod.mk.injEq] at hs; rw [← hs.2]; rfl
      rw [h5, rAccepted_append, List.length_append]
      omega) n
  refine ⟨m, List.prefix_of_prefix_length_le (l₃ := (s 0).cur.toList ++ (s 0).buf.items ++ rReceived (e m)) ?_ ?_ h2⟩
  · exact (List.prefix_append_right_inj _).mpr (hgrow n m h1).1
  · rw [hlist m, List.append_assoc]; exact List.prefix_append _ _

/-- One message after the other, each refused once. -/
def rFairCycle : List RAct := [.read [[1]], .loadDisp, .handled, .run, .begin, .ret false, .dis, .dtimer, .run, .begin, .ret true, .dis, .dis, .run]

def rFairState (r : Nat) : Rx := match Rx.exec 100 Rx.init (.linkUp :: rFairCycle.take r) with
  | some (s, _) => s
  | none => Rx.init

def rFairEvents (r : Nat) : List REv := match rFairCycle[r]? with
  | some x => match (rFairState r).step 100 x with
    | some (_, es) => es
    | none => []
  | none => []

def rFairTrace : Nat → List REv
  | 0 => []
  | n + 1 => rFairTrace n ++ rFairEvents (n % 14)

theorem rFairCycle_step (r : Nat) (hr : r < 14) : ∃ x, rFairCycle[r]? = some x ∧ x.steady = true ∧ (rFairState r).step 100 x = some (rFairState ((r + 1) % 14), rFairEvents r) := by
  have : r = 0 ∨ r = 1 ∨ r = 2 ∨ r = 3 ∨ r = 4 ∨ r = 5 ∨ r = 6 ∨ r = 7 ∨ r = 8 ∨ r = 9 ∨ r = 10 ∨ r = 11 ∨ r = 12 ∨ r = 13 := by omega
  rcases this with rfl | rfl | rfl | rfl | rfl | rfl | rfl | rfl | rfl | rfl | rfl | rfl | rfl | rfl <;> exact ⟨_, rfl, rfl, rfl⟩

/-- Non-vacuity: messages arrive for ever, each is refused once, all are accepted. -/
theorem C26_no_starvation_demo : ∃ (s : Nat → Rx) (a : Nat → Option RAct) (e : Nat → List REv), Rx.Run 100 Rx.init [.linkUp] (s 0) [] ∧ (s 0).dlost = false ∧ Exec (Rx.step 100) s a e ∧
    (∀ n x, a n = some x → x ≠ .loseDispatch ∧ x ≠ .pop ∧ x ≠ .popAll ∧ x ≠ .reset) ∧
    Fair (Rx.step 100) s a (· == .loadDisp) ∧ Fair (Rx.step 100) s a (· == .run) ∧ Fair (Rx.step 100) s a (· == .begin) ∧
    Fair (Rx.step 100) s a (· == .dis) ∧ Fair (Rx.step 100) s a (· == .dtimer) ∧ Fair (Rx.step 100) s a (· == .ret true) ∧ (∀ k, (rReceived (e (14 * k))).length = k) ∧
    ∀ k, ∃ m, k ≤ (rAccepted (e m)).length := by
  let s : Nat → Rx := fun n => rFairState (n % 14)
  let a : Nat → Option RAct := fun n => rFairCycle[n % 14]?
  have hrec : ∀ k, (rReceived (rFairTrace (14 * k))).length = k := by
    intro k
    induction k with
    | zero => rfl
    | succ k ih =>
      show (rReceived (rFairTrace (14 * k + 14))).length = k + 1
      have hm : ∀ i, i < 14 → (14 * k + i) % 14 = i := fun i hi => by omega
      simp only [rFairTrace, rReceived_append, List.length_append]
      simp only [hm 13 (by omega), hm 12 (by omega), hm 11 (by omega), hm 10 (by omega), hm 9 (by omega), hm 8 (by omega), hm 7 (by omega), hm 6 (by omega), hm 5 (by omega), hm 4 (by omega), hm 3 (by omega), hm 2 (by omega), hm 1 (by omega),
        show (14 * k) % 14 = 0 by omega]
      rw [ih]
      rfl
  have hex : Exec (Rx.step 100) s a rFairTrace := by
    refine ⟨rfl, fun n hn => ?_, fun n x hx => ?_⟩
    · obtain ⟨x, hx, _⟩ := rFairCycle_step (n % 14) (Nat.mod_lt _ (by decide))
      exact absurd (hx.symm.trans hn) (by simp)
    · obtain ⟨y, hy, _, hs⟩ := rFairCycle_step (n % 14) (Nat.mod_lt _ (by decide))
      cases hy.symm.trans hx
      refine ⟨_, ?_, rfl⟩
      show (rFairState (n % 14)).step 100 x = some (rFairState ((n + 1) % 14), _)
      rw [hs, show (n % 14 + 1) % 14 = (n + 1) % 14 by omega]
  have hst : ∀ n x, a n = some x → x ≠ .loseDispatch ∧ x ≠ .pop ∧ x ≠ .popAll ∧ x ≠ .reset := by
    intro n x hx
    obtain ⟨y, hy, h1, _⟩ := rFairCycle_step (n % 14) (Nat.mod_lt _ (by decide))
    cases hy.symm.trans hx
    refine ⟨?_, ?_, ?_, ?_⟩ <;> (rintro rfl; simp [RAct.steady] at h1)
  have hat : ∀ r k, r < 14 → a (14 * k + r) = rFairCycle[r]? := by
    intro r k hr
    show rFairCycle[(14 * k + r) % 14]? = _
    rw [show (14 * k + r) % 14 = r by omega]
  have hrun : Rx.Run 100 Rx.init [.linkUp] (s 0) [] := Rx.exec_run rfl
  have f1 : Fair (Rx.step 100) s a (· == .loadDisp) := fair_periodic 14 1 .loadDisp (by decide) rfl (fun k => hat 1 k (by decide))
  have f2 : Fair (Rx.step 100) s a (· == .run) := fair_periodic 14 3 .run (by decide) rfl (fun k => hat 3 k (by decide))
  have f3 : Fair (Rx.step 100) s a (· == .begin) := fair_periodic 14 4 .begin (by decide) rfl (fun k => hat 4 k (by decide))
  have f4 : Fair (Rx.step 100) s a (· == .dis) := fair_periodic 14 6 .dis (by decide) rfl (fun k => hat 6 k (by decide))
  have f5 : Fair (Rx.step 100) s a (· == .dtimer) := fair_periodic 14 7 .dtimer (by decide) rfl (fun k => hat 7 k (by decide))
  have f6 : Fair (Rx.step 100) s a (· == .ret true) := fair_periodic 14 10 (.ret true) (by decide) rfl (fun k => hat 10 k (by decide))
  refine ⟨s, a, rFairTrace, hrun, rfl, hex, hst, f1, f2, f3, f4, f5, f6, hrec, fun k => ?_⟩
  obtain ⟨m, hm⟩ := C26_no_starvation_partial 100 _ _ s a rFairTrace hrun rfl hex hst f1 f2 f3 f4 f5 f6 (14 * k)
  refine ⟨m, ?_⟩
  have := hm.length_le
  rw [List.length_append, hrec k] at this
  omega

end StAsio
