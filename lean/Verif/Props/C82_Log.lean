import Verif.Model.Log
/-!
C82: a line of log output.
-/
set_option autoImplicit false
namespace StAsio

theorem cString_append {cs rest : List Char} (h : '\x00' ∉ cs) : cString (cs ++ '\x00' :: rest) = some cs := by
  induction cs with
  | nil => simp [cString]
  | cons c cs ih =>
    simp only [List.mem_cons, not_or] at h
    simp [cString, ih h.2, Ne.symm h.1]

theorem toTimeStr_eq {time rest : List Char} (h : '\x00' ∉ time) : toTimeStr (time ++ '\n' :: '\x00' :: rest) = some time := by
  have h1 : cString (time ++ '\n' :: '\x00' :: rest) = some (time ++ ['\n']) := by
    have := cString_append (cs := time ++ ['\n']) (rest := rest) (by simp [h])
    simpa using this
  have h2 : cString (time ++ '\x00' :: '\x00' :: rest) = some time := cString_append h
  simp [toTimeStr, h1, arrWrite, h2]

/-- **C82**: whatever the level, the thread and the time are, whatever the text is and however long, the output stays in the array it was given (of any size but 0, whatever was in it) and is the line,
cut after the array's size minus one characters if it is longer. -/
theorem C82_log {head : Option (List Char)} {buf thread time rest text : List Char} (hn : 0 < buf.length)
    (h0 : '\x00' ∉ logLine head thread time text) :
    ∃ out, allOut head buf thread (time ++ '\n' :: '\x00' :: rest) text = some out ∧ out.length = buf.length ∧ cString out = some ((logLine head thread time text).take (buf.length - 1)) := by
  have hl : logLine head thread time text = logHeader head thread time ++ text := by
    cases head <;> simp [logLine, logHeader]
  rw [hl] at h0 ⊢
  have ht : '\x00' ∉ time := by
    intro h; apply h0; simp [logHeader, h]
  have hh : '\x00' ∉ logHeader head thread time := fun h => h0 (List.mem_append_left _ h)
  have hx : '\x00' ∉ text := fun h => h0 (List.mem_append_right _ h)
  simp only [allOut, toTimeStr_eq ht, Option.bind_some]
  rw [if_neg (by omega)]
  generalize logHeader head thread time = h at *
  have hw : arrWrite buf 0 (h.take buf.length) = some (h.take buf.length ++ buf.drop h.length) := by
    simp only [arrWrite, List.length_take]
    rw [if_pos (by omega)]
    simp only [List.take_zero, List.nil_append, Nat.zero_add]
    by_cases hc : h.length ≤ buf.length
    · rw [Nat.min_eq_right hc]
    · rw [Nat.min_eq_left (by omega), List.drop_eq_nil_of_le (Nat.le_refl _), List.drop_eq_nil_of_le (by omega)]
  rw [hw, Option.bind_some]
  have hlen : (h.take buf.length ++ buf.drop h.length).length = buf.length := by
    simp only [List.length_append, List.length_take, List.length_drop]; omega
  rw [hlen]
  by_cases hc : buf.length ≤ h.length
  · rw [if_pos hc, arrWrite, hlen]
    simp only [List.length_cons, List.length_nil]
    rw [if_pos (by omega), List.drop_eq_nil_of_le hc]
    simp only [List.append_nil]
    have hd : (List.take buf.length h).drop (buf.length - 1 + (0 + 1)) = [] := List.drop_eq_nil_of_le (by rw [List.length_take]; omega)
    rw [hd, List.append_nil, List.take_take, Nat.min_eq_left (by omega)]
    refine ⟨_, rfl, ?_, ?_⟩
    · simp only [List.length_append, List.length_take, List.length_cons, List.length_nil]; omega
    · rw [cString_append (fun hm => hh (List.mem_of_mem_take hm)), List.take_append_of_le_length (by omega)]
  · rw [if_neg hc, vsnprintf, arrWrite, hlen]
    simp only [List.length_append, List.length_take, List.length_cons, List.length_nil]
    rw [if_pos (by omega), List.take_of_length_le (l := h) (by omega), List.take_left']
    refine ⟨_, rfl, ?_, ?_⟩
    · simp only [List.length_append, List.length_take, List.length_cons, List.length_nil, List.length_drop]; omega
    · rw [List.append_assoc, List.append_assoc, List.singleton_append, ← List.append_assoc, cString_append]
      · rw [List.take_append, List.take_of_length_le (l := h) (by omega), Nat.sub_right_comm]
      · intro hm
        cases List.mem_append.mp hm with
        | inl hm => exact hh hm
        | inr hm => exact hx (List.mem_of_mem_take hm)
    · rfl

theorem C82_log_demo : (allOut (some "info".toList) (List.replicate 24 'x') "7".toList ("Mon".toList ++ ['\n', '\x00', 'y']) "hello".toList).bind cString = some "[info] [7] Mon -> hello".toList ∧
    (allOut none (List.replicate 8 'x') "7".toList ("Mon".toList ++ ['\n', '\x00', 'y']) "hello".toList).bind cString = some "[7] Mon".toList ∧
    (allOut none (List.replicate 14 'x') "7".toList ("Mon".toList ++ ['\n', '\x00', 'y']) "hello".toList).bind cString = some "[7] Mon -> he".toList := by decide +kernel

end StAsio
