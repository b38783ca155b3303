import Verif.Lemmas.TimerIds
/-!
C111: timers of the library, of derived classes and of the user do not disturb each other.
-/
set_option autoImplicit false
namespace StAsio

/-- Derive any classes from a class of the library, begin the timer IDs of each at TIMER_END of its super class, and give each any number of IDs, together less than 65536: then no ID is used twice, and an ID beginning from TIMER_END
of the library's class is none of the library's. -/
theorem C111_ids_partial (cs us : List TClass) (hl : cs ∈ libChains) (hu : ∀ c ∈ us, c.used.Nodup ∧ ∀ o ∈ c.used, o < c.size) (ht : timerEnd cs + (us.map TClass.size).sum < 65536) :
    (timerIds (cs ++ us)).flatten.Nodup ∧ (∀ n, timerEnd cs ≤ n → n ∉ (timerIds cs).flatten) ∧ timerEnd (cs ++ us) = timerEnd cs + (us.map TClass.size).sum := by
  have hg : ∀ c ∈ cs, c.used.Nodup ∧ ∀ o ∈ c.used, o < c.size := by
    intro c hc
    simp only [libChains, List.mem_cons, List.not_mem_nil, or_false] at hl
    rcases hl with rfl | rfl | rfl | rfl | rfl | rfl <;> revert c <;> decide
  have hs : TClass.total cs < 65536 := by
    simp only [libChains, List.mem_cons, List.not_mem_nil, or_false] at hl
    rcases hl with rfl | rfl | rfl | rfl | rfl | rfl <;> decide
  have he : timerEnd cs = TClass.total cs := by
    have := timerEnd_from cs 0 (by omega)
    simpa [timerEnd] using this
  have ha : TClass.total (cs ++ us) = TClass.total cs + (us.map TClass.size).sum := by simp [TClass.total]
  refine ⟨?_, ?_, ?_⟩
  · refine timerIdsFrom_nodup _ 0 (by omega) ?_
    intro c hc
    rcases List.mem_append.mp hc with hc | hc
    · exact hg c hc
    · exact hu c hc
  · intro n hn hm
    have := timerIdsFrom_range cs 0 (by omega) (fun c hc => (hg c hc).2) n hm
    omega
  · have := timerEnd_from (cs ++ us) 0 (by omega)
    rw [ha] at this
    rw [he]
    simpa [timerEnd] using this

/-- Take any set of timers, e.g. those of one class: which of them run, and which call backs are invoked for them, in which order and for which schedule, is what would be without all other timers, whatever these do - except for
stop_all_timer. -/
theorem C111_independent (p : Nat → Bool) {as : List TAct} {l : Tms} {es : List TEv} (hr : Tms.Run [] as l es) :
    ∃ bs l' fs, TOwn p as bs ∧ Tms.Run [] bs l' fs ∧ firedOf p fs = firedOf p es ∧ runningOf p l' = runningOf p l ∧ ∀ id, p id = true → l'.find id = l.find id := by
  obtain ⟨bs, fs, h1, h2, h3⟩ := Tms.own_run p hr
  exact ⟨bs, _, fs, h1, h2, h3, Tms.running_own p l, fun id hp => Tms.own_find p l id hp⟩

/-- If the call backs of timers with p do nothing with other timers and those of other timers nothing with timers with p, e.g. because two classes use their own IDs only, then the other timers can be left out altogether: all that
concerns the timers with p is a run by itself, with the same invocations and the same timers running. -/
theorem C111_separate (p : Nat → Bool) {as : List TAct} {l : Tms} {es : List TEv} (hr : Tms.Run [] as l es) (hc : ∀ id i script ret, TAct.run id i script ret ∈ as → ∀ o ∈ script, o.concerns p = p id) :
    ∃ l' fs, Tms.Run [] (as.filter (TAct.concerns p)) l' fs ∧ firedOf p fs = firedOf p es ∧ runningOf p l' = runningOf p l := by
  obtain ⟨bs, l', fs, h1, h2, h3, h4, _⟩ := C111_independent p hr
  have hb : bs = as.filter (TAct.concerns p) := by
    clear h2 h3 h4 hr
    induction h1 with
    | nil => rfl
    | op o h ho ih => rw [ih fun id i s r hm => hc id i s r (by simp [hm])]; simp [TAct.concerns, ho]
    | otherOp o h ho ih => rw [ih fun id i s r hm => hc id i s r (by simp [hm])]; simp [TAct.concerns, ho]
    | expire id h ho ih => rw [ih fun id i s r hm => hc id i s r (by simp [hm])]; simp [TAct.concerns, ho]
    | otherExpire id h ho ih => rw [ih fun id i s r hm => hc id i s r (by simp [hm])]; simp [TAct.concerns, ho]
    | run id i script ret h ho ih =>
      have h2 := hc id i script ret (by simp)
      have h3 : script.filter (TOp.concerns p) = script := List.filter_eq_self.mpr fun o hm => by rw [h2 o hm, ho]
      rw [ih fun id i s r hm => hc id i s r (by simp [hm]), h3]; simp [TAct.concerns, ho]
    | otherRun id i script ret h ho ih =>
      have h2 := hc id i script ret (by simp)
      have h3 : script.filter (TOp.concerns p) = [] := by
        rw [List.filter_eq_nil_iff]
        intro o hm
        simp [h2 o hm, ho]
      rw [ih fun id i s r hm => hc id i s r (by simp [hm]), h3]; simp [TAct.concerns, ho]
    | otherAborted id i script ret h ho ih => rw [ih fun id i s r hm => hc id i s r (by simp [hm])]; simp [TAct.concerns, ho]
  subst hb
  exact ⟨l', fs, h2, h3, h4⟩

/-- False of the code: stop_all_timer, which is public, stops the timers of the library, too. Here a UDP socket waits for its delayed close (TIMER_DELAY_CLOSE, 2), and its user, who has a timer with ID TIMER_END, stops all timers: then
nothing will ever call on_close. -/
theorem C111_fails_stop_all : ∃ as l, Tms.Run [] as l [] ∧ as = [.op (.createOrUpdate 2 5050 0 true), .op (.createOrUpdate (timerEnd [tcSocket]) 100 1 true), .op .stopAll] ∧
    runningOf (fun id => (tcSocket.ids 0).contains id) l = [] ∧
    ∃ l', Tms.Run [] (as.take 2) l' [] ∧ runningOf (fun id => (tcSocket.ids 0).contains id) l' = [2] ∧ runningOf (fun id => !(tcSocket.ids 0).contains id) l' = [10] := by
  refine ⟨_, _, Tms.exec_run (s' := (Tms.exec [] [.op (.createOrUpdate 2 5050 0 true), .op (.createOrUpdate (timerEnd [tcSocket]) 100 1 true), .op .stopAll]).get (by decide) |>.1) (by decide), rfl, by decide,
    _, Tms.exec_run (s' := (Tms.exec [] [.op (.createOrUpdate 2 5050 0 true), .op (.createOrUpdate (timerEnd [tcSocket]) 100 1 true)]).get (by decide) |>.1) (by decide), by decide, by decide⟩

/-- False without the bound: IDs are unsigned short, so a class that reserves too many makes its derived classes use the IDs of the library again. -/
theorem C111_fails_many : ∃ us : List TClass, (∀ c ∈ us, c.used.Nodup ∧ ∀ o ∈ c.used, o < c.size) ∧ ¬ (timerIds ([tcSocket, tcTcp, tcClient] ++ us)).flatten.Nodup ∧ timerEnd ([tcSocket, tcTcp, tcClient] ++ us) = 5 :=
  ⟨[⟨[0, 1], 65517⟩, ⟨[0], 4⟩], by decide, by decide, by decide⟩

/-- file_client (file_client.h:362-364), and a class derived from a TCP client with three timers. -/
theorem C111_demo : timerIds ([tcPool] ++ [⟨[0], 5⟩]) = [[0, 1], [10]] ∧ timerIds ([tcSocket, tcTcp, tcClient] ++ [⟨[0, 1, 2], 3⟩]) = [[0, 1, 2, 3], [10], [15, 16], [20, 21, 22]] ∧ timerEnd [tcSocket, tcTcp, tcClient] = 20 := by decide

/-- A user's timer (20) whose call back stops itself while a timer of the library (0) goes on. -/
theorem C111_run_demo : ∃ as l es, Tms.Run [] as l es ∧ firedOf (fun id => decide (id < 20)) es = [.fired 0 1 7, .fired 0 2 7] ∧ firedOf (fun id => decide (20 ≤ id)) es = [.fired 20 1 9] ∧ runningOf (fun _ => true) l = [0] ∧
    ∀ id i script ret, TAct.run id i script ret ∈ as → ∀ o ∈ script, o.concerns (fun id => decide (id < 20)) = decide (id < 20) := by
  refine ⟨[.op (.createOrUpdate 0 50 7 true), .op (.createOrUpdate 20 50 9 true), .expire 20, .expire 0, .run 0 0 [] true, .run 20 0 [.stop 20] true, .expire 0, .run 0 0 [] true], _, _, Tms.exec_run (s' := ?_) (es := ?_) ?_, ?_⟩
  · exact ((Tms.exec [] [.op (.createOrUpdate 0 50 7 true), .op (.createOrUpdate 20 50 9 true), .expire 20, .expire 0, .run 0 0 [] true, .run 20 0 [.stop 20] true, .expire 0, .run 0 0 [] true]).get (by decide)).1
  · exact ((Tms.exec [] [.op (.createOrUpdate 0 50 7 true), .op (.createOrUpdate 20 50 9 true), .expire 20, .expire 0, .run 0 0 [] true, .run 20 0 [.stop 20] true, .expire 0, .run 0 0 [] true]).get (by decide)).2
  · decide
  · refine ⟨by decide, by decide, by decide, ?_⟩
    intro id i script ret hm
    simp at hm
    rcases hm with ⟨rfl, rfl, rfl, rfl⟩ | ⟨rfl, rfl, rfl, rfl⟩ | ⟨rfl, rfl, rfl, rfl⟩ <;> decide

end StAsio
