import Verif.Lemmas.DelayWatch
/-!
C109: concurrent_client shuts a link down if and only if an echo takes too long. `Spec/DelayWatch` says what an ideal watcher does.
-/
set_option autoImplicit false
namespace StAsio

/-- Whatever happens, the program does what the ideal watcher does: it shuts a link down only if more than max_delay passed since the link was connected or an echo came last, it never goes on with an echo that is later than that, and a
link it has shut down is never connected again. -/
theorem C109_truthful {c : DwCfg} {as : List DwAct} {s : Dw} {es : List DwEv} (hr : Dw.Run c Dw.any Dw.init as s es) : (dwRight c.max DwSt.init es).isSome = true := by
  obtain ⟨w, hw, _⟩ := (Dw.good_run hr).w
  simp [hw]

/-- In particular: if at some moment the link is shut down by the timer, then every time since max_delay ago, neither the link was connected nor did an echo come. -/
theorem C109_silent {c : DwCfg} {as : List DwAct} {s : Dw} {es fs : List DwEv} {t : Nat} (hr : Dw.Run c Dw.any Dw.init as s (es ++ .shut t :: fs)) :
    ∃ w, dwRight c.max DwSt.init es = some w ∧ w.up = true ∧ w.last + c.max < t := by
  obtain ⟨w, hw, _⟩ := (Dw.good_run hr).w
  rw [dwRight_append] at hw
  cases h : dwRight c.max DwSt.init es with
  | none => simp [h] at hw
  | some v =>
    refine ⟨v, rfl, ?_⟩
    simp only [h, Option.bind_some, dwRight, dwNext] at hw
    split at hw
    · rename_i hc; exact ⟨hc.1, by omega⟩
    · simp at hw

/-- A link that is up was connected, or has handled an echo, not longer ago than max_delay, five seconds and twice the time that handlers may be late. -/
theorem C109_noticed {c : DwCfg} {as : List DwAct} {s : Dw} {es : List DwEv} (hr : Dw.Run c Dw.any Dw.init as s es) (hu : s.up = true) :
    ∃ w, dwRight c.max DwSt.init es = some w ∧ w.up = true ∧ s.now ≤ w.last + c.max + c.period + 2 * c.late := by
  have h := Dw.good_run hr
  obtain ⟨w, hw, hwu, _, hwl⟩ := h.w
  refine ⟨w, hw, by rw [hwu, hu], ?_⟩
  rw [hwl hu]
  by_cases hg : s.pc = .greet
  · have := (h.greet hg).2; omega
  · obtain ⟨d, hd⟩ := h.timed hu hg
    have h1 := (h.due d hd).1
    have h2 := (h.due d hd).2 hu
    omega

/-- If nothing is left in the send buffer whenever the link is connected, there is at most one message on its way, no echo that took longer than max_delay is gone on with, and while the link is up the message on its way was sent not
longer ago than max_delay, five seconds and twice the time that handlers may be late. -/
theorem C109_each_partial {c : DwCfg} {as : List DwAct} {s : Dw} {es : List DwEv} (hr : Dw.Run c Dw.clean Dw.init as s es) :
    (dwOnWay es).length ≤ 1 ∧ (∀ i t u, .sent i t ∈ es → .back i u ∈ es → u ≤ t + c.max) ∧
    (s.up = true → ∀ i t, i ∈ dwOnWay es → .sent i t ∈ es → s.now ≤ t + c.max + c.period + 2 * c.late) := by
  have h := Dw.one_run hr
  have hg := Dw.good_run hr
  refine ⟨?_, h.inTime, ?_⟩
  · rw [h.way, List.length_append]
    have := h.one
    omega
  · intro hu i t hi hs
    rw [h.way] at hi
    have h1 := h.sent i t hi hs hu
    by_cases hp : s.pc = .greet
    · have := (hg.greet hp).2; omega
    · obtain ⟨d, hd⟩ := hg.timed hu hp
      have h2 := (hg.due d hd).1
      have h3 := (hg.due d hd).2 hu
      omega

/-- Time can always go on: whatever is overdue can be done. -/
theorem C109_time_goes_on {c : DwCfg} (hc : 0 < c.period + c.late) {as : List DwAct} {s : Dw} {es : List DwEv} (hr : Dw.Run c Dw.any Dw.init as s es) :
    s.canPass c 1 = true ∨ ∃ a s' fs, s.step c a = some (s', fs) ∧ s'.canPass c 1 = true := by
  have h := Dw.good_run hr
  by_cases hp : s.pc = .greet
  · refine .inr ⟨.greet, { s.send with pc := .idle, due := some (s.now + c.period) }, [.sent s.next s.now], by simp [Dw.step, hp], ?_⟩
    have : s.now + 1 ≤ s.now + c.period + c.late := by omega
    simp [Dw.canPass, Dw.send, this]
  · have hp' : (s.pc != .greet) = true := by simpa using hp
    cases hd : s.due with
    | none => left; simp [Dw.canPass, hd, hp']
    | some d =>
      by_cases hl : s.now + 1 ≤ d + c.late
      · left; simp [Dw.canPass, hd, hp', hl]
      · right
        by_cases ht : s.tooLate c = true
        · refine ⟨.timer, { s.giveUp with due := none }, [.shut s.now], ?_, ?_⟩
          · simp only [Dw.step, hd, ht]; rw [if_pos (by omega)]; rfl
          · simp [Dw.canPass, Dw.giveUp, hp']
        · refine ⟨.timer, { s with due := some (s.now + c.period) }, [], ?_, ?_⟩
          · simp only [Dw.step, hd]; rw [if_pos (by omega), if_neg ht]
          · simp [Dw.canPass, hp']; omega

/-- One second, five seconds, handlers up to 10 ms late. -/
def dwCfg : DwCfg := { max := 1000, period := 5000, late := 10 }

/-- False of the code: a message that is still in the send buffer when the link is lost is sent over the next link, together with the one that on_connect sends; from then on two messages are on their way, the echo of one of them
restarts the time of the other, and an echo that took nearly twice as long as max_delay is gone on with. -/
theorem C109_fails_two : ∃ as s es, Dw.Run dwCfg Dw.any Dw.init as s es ∧ (dwOnWay es).length = 2 ∧ s.up = true ∧ ∃ i t u, .sent i t ∈ es ∧ .back i u ∈ es ∧ t + dwCfg.max < u := by
  let bs : List DwAct := [.connect, .greet, .write true, .take, .reply, .lose, .close, .connect, .greet, .write true, .write true, .take, .reply, .write true, .pass 900, .take, .reply, .write true, .pass 900, .take, .reply]
  obtain ⟨s, es, hr, h⟩ := Dw.run_of (c := dwCfg) (p := Dw.any) bs (fun s es => decide ((dwOnWay es).length = 2) && s.up && decide (.sent 3 0 ∈ es) && decide (.back 3 1800 ∈ es)) (by decide +kernel)
  simp only [Bool.and_eq_true, decide_eq_true_eq] at h
  exact ⟨bs, s, es, hr, h.1.1.1, h.1.1.2, 3, 0, 1800, h.1.2, h.2, by decide⟩

/-- A link with quick echoes stays up for as long as one likes to look; then the echo does not come for more than a second and the link is shut down when the timer expires the next time. -/
theorem C109_demo : ∃ as s es, Dw.Run dwCfg Dw.clean Dw.init as s es ∧ .shut 10000 ∈ es ∧ .sent 4 4000 ∈ es ∧ dwOnWay es = [4] ∧ s.over = true := by
  let bs : List DwAct := [.connect, .greet, .write true, .pass 1000, .take, .reply, .write true, .pass 1000, .take, .reply, .write true, .pass 1000, .take, .reply, .write true, .pass 1000, .take, .reply, .write true, .pass 1000, .timer, .pass 5000, .timer]
  obtain ⟨s, es, hr, h⟩ := Dw.run_of (c := dwCfg) (p := Dw.clean) bs (fun s es => decide (.shut 10000 ∈ es) && decide (.sent 4 4000 ∈ es) && decide (dwOnWay es = [4]) && s.over) (by decide +kernel)
  simp only [Bool.and_eq_true, decide_eq_true_eq] at h
  exact ⟨bs, s, es, hr, h.1.1.1, h.1.1.2, h.1.2, h.2⟩

/-- An echo that comes after more than a second has the link shut down at once, and the link is lost for good. -/
theorem C109_late_demo : ∃ as s es, Dw.Run dwCfg Dw.clean Dw.init as s es ∧ es = [.up 0, .sent 0 0, .down 500, .gone 0, .up 500, .sent 1 505, .late 1 1506] ∧ s.up = false ∧ s.over = true := by
  let bs : List DwAct := [.connect, .greet, .write true, .pass 500, .lose, .close, .connect, .pass 5, .greet, .write true, .pass 1001, .take]
  obtain ⟨s, es, hr, h⟩ := Dw.run_of (c := dwCfg) (p := Dw.clean) bs (fun s es => decide (es = [.up 0, .sent 0 0, .down 500, .gone 0, .up 500, .sent 1 505, .late 1 1506]) && !s.up && s.over) (by decide +kernel)
  simp only [Bool.and_eq_true, decide_eq_true_eq] at h
  exact ⟨bs, s, es, hr, h.1.1, by simpa using h.1.2, h.2⟩

end StAsio
