import Verif.Lemmas.BasicBuffer
/-!
# C13, C14, C15: basic_buffer

`Bb.run junk ops x y` performs a sequence of operations on two buffers, `none` would be an access outside the allocated block.
-/
set_option autoImplicit false
namespace StAsio

/-- C13. Any sequence of operations on two buffers, with any arguments, has a defined result, and contents and exceptions
are those of ideal byte strings. -/
theorem C13_byte_string (junk : Nat → Bytes) (hj : ∀ n, (junk n).length = n) (ops : List BbOp) :
    ∃ x y es, Bb.run junk ops Bb.empty Bb.empty = some (x, y, es) ∧ IdealRun ops [] [] x.content y.content es := by
  obtain ⟨x, y, es, h1, _, _, h4⟩ := Bb.run_spec hj ops Bb.empty_wf Bb.empty_wf
  exact ⟨x, y, es, h1, h4⟩

/-- Non-vacuity of C13: a concrete run. -/
example : (Bb.run (fun n => List.replicate n 7) [.append (some [1, 2, 3, 4]), .erase 1 2, .swap, .appendFill 2 9, .appendFrom, .erase 5 1, .resize 3, .append2 (some [0])]
    Bb.empty Bb.empty).map (fun r => (r.1.content, r.2.1.content, r.2.2)) =
    some ([9, 9, 1, 0], [1, 4], [none, none, none, none, none, some .outOfRange, none, none]) := by decide +kernel

/-- C14. After any sequence of operations: `size() <= capacity() <= UINT_MAX`, the capacity is a multiple of 16 or UINT_MAX,
and it is the size of the allocated block (so that together with C13 every access is inside the block). -/
theorem C14_capacity (junk : Nat → Bytes) (hj : ∀ n, (junk n).length = n) (ops : List BbOp) (x y : Bb) (es : List (Option BbExc))
    (h : Bb.run junk ops Bb.empty Bb.empty = some (x, y, es)) :
    x.size ≤ x.cap ∧ x.cap ≤ 4294967295 ∧ (x.cap % 16 = 0 ∨ x.cap = 4294967295) ∧ (x.mem.getD []).length = x.cap ∧ x.content.length = x.size := by
  obtain ⟨x', y', es', h1, h2, _, _⟩ := Bb.run_spec hj ops Bb.empty_wf Bb.empty_wf
  rw [h] at h1
  cases h1
  refine ⟨by rw [h2.size]; exact h2.len, h2.max, h2.align, ?_, by rw [h2.content_len, h2.size]⟩
  cases hm : x.mem with
  | none => simp [h2.null hm]
  | some m => simpa using h2.block m hm

/-- C14. A successful `reserve(n)` provides room for `n` bytes although its arithmetic is modulo 2^32, also next to UINT_MAX. -/
theorem C14_reserve (junk : Nat → Bytes) (hj : ∀ n, (junk n).length = n) (ops : List BbOp) (x y : Bb) (es : List (Option BbExc))
    (h : Bb.run junk ops Bb.empty Bb.empty = some (x, y, es)) (n : Nat) (hn : n ≤ 4294967295) :
    ∃ x', x.reserve junk n = some (x', none) ∧ n ≤ x'.cap ∧ x'.content = x.content := by
  obtain ⟨x', y', es', h1, h2, _, _⟩ := Bb.run_spec hj ops Bb.empty_wf Bb.empty_wf
  rw [h] at h1
  cases h1
  obtain ⟨x', e1, _, _, e4, e5, _⟩ := (Bb.reserve_spec hj h2 n).1 hn
  exact ⟨x', e1, e5, e4⟩

theorem Bb.round_le (c : Nat) : Bb.round c ≤ c + 15 ∧ (c % 16 = 0 → Bb.round c = c) := by
  have hmax : bbMax = 4294967295 := by decide
  unfold Bb.round
  simp only
  split
  · split <;> omega
  · omega

/-- C14. `reserve(n)` takes at most 15 bytes more than asked for or needed, or twice the capacity there was (so that appending bit by bit copies seldom); `shrink_to_fit` leaves at most 15 unused bytes (16 if the buffer is empty). -/
theorem C14_waste (junk : Nat → Bytes) (hj : ∀ n, (junk n).length = n) (ops : List BbOp) (x y : Bb) (es : List (Option BbExc))
    (h : Bb.run junk ops Bb.empty Bb.empty = some (x, y, es)) :
    (∀ n x', x.reserve junk n = some (x', none) → x'.cap ≤ max (max (max n x.size) 1 + 15) (2 * x.cap) ∧ (x.cap < n → n ≤ 2 * x.cap → 2 * x.cap ≤ 4294967295 → x'.cap = 2 * x.cap)) ∧
    (∀ x', x.reserve junk 0 = some (x', none) → x'.cap ≤ max x.size 1 + 15) := by
  obtain ⟨x', y', es', h1, h2, _, _⟩ := Bb.run_spec hj ops Bb.empty_wf Bb.empty_wf
  rw [h] at h1
  cases h1
  have hmax : bbMax = 4294967295 := by decide
  have hl := h2.len
  have hcm := h2.max
  have hca := h2.align
  have key : ∀ n x', x.reserve junk n = some (x', none) → (x.cap < n → n ≤ 2 * x.cap → 2 * x.cap ≤ 4294967295 → x'.cap = 2 * x.cap) ∧
      ∃ c1 c2, c1 = (if n < x.len then x.len else if n = 0 then 16 else n) ∧ (c2 = c1 ∨ x.cap < c1 ∧ c2 ≤ 2 * x.cap ∧ c2 % 16 = 0 ∧ c1 < c2) ∧ (x'.cap = c1 ∨ x'.cap = Bb.round c2) := by
    intro n x' hx
    unfold Bb.reserve at hx
    split at hx
    · cases hx
    · rename_i hn
      simp only at hx
      have hc1 : ∃ c1, (if n < x.len then x.len else if n = 0 then 16 else n) = c1 := ⟨_, rfl⟩
      obtain ⟨c1, hc1⟩ := hc1
      rw [hc1] at hx ⊢
      have hb : (c1 = n ∨ n < x.len ∨ n = 0) ∧ n ≤ c1 ∧ c1 ≤ 4294967295 := by
        rw [← hc1]
        split
        · omega
        · split <;> omega
      by_cases he : c1 = x.cap
      · rw [if_neg (by simp [he])] at hx
        cases hx
        exact ⟨fun _ _ _ => by omega, c1, c1, rfl, .inl rfl, .inl he.symm⟩
      · rw [if_pos he] at hx
        have hc2 : ∃ c2, (if x.cap < c1 ∧ c1 < 2 * x.cap % 2 ^ 32 then (if bbMax < 2 * x.cap % 2 ^ 32 then bbMax else 2 * x.cap % 2 ^ 32) else c1) = c2 := ⟨_, rfl⟩
        obtain ⟨c2, hc2⟩ := hc2
        rw [hc2] at hx
        have h3 : (c2 = c1 ∨ x.cap < c1 ∧ c2 ≤ 2 * x.cap ∧ c2 % 16 = 0 ∧ c1 < c2) ∧ (x.cap < c1 → c1 ≤ 2 * x.cap → 2 * x.cap ≤ 4294967295 → c2 = 2 * x.cap) := by
          rw [← hc2]
          split
          · split <;> omega
          · omega
        have hr := Bb.round_le c2
        have hrm : Bb.round c2 ≤ bbMax ∨ bbMax < c2 := by
          unfold Bb.round
          simp only
          split
          · split <;> omega
          · omega
        have h4 : c2 ≤ 4294967295 := by
          rw [← hc2]
          split
          · split <;> omega
          · omega
        by_cases he2 : Bb.round c2 = x.cap
        · rw [if_neg (by simp [he2])] at hx
          cases hx
          refine ⟨fun g1 g2 g3 => ?_, c1, c2, rfl, h3.1, .inr he2.symm⟩
          have := h3.2 (by omega) (by omega) g3
          have := hr.2 (by omega)
          omega
        · rw [if_pos he2] at hx
          cases hx
          have hcap : Bb.round c2 % 2 ^ 32 = Bb.round c2 := Nat.mod_eq_of_lt (by omega)
          refine ⟨fun g1 g2 g3 => ?_, c1, c2, rfl, h3.1, .inr hcap⟩
          have := h3.2 (by omega) (by omega) g3
          have := hr.2 (by omega)
          simp only
          omega
  rw [h2.size]
  constructor
  · intro n x' hx
    obtain ⟨k1, c1, c2, k2, k3, k4⟩ := key n x' hx
    refine ⟨?_, k1⟩
    have hr := Bb.round_le c2
    have : c1 ≤ max (max n x.len) 1 + 15 := by
      rw [k2]; split
      · omega
      · split <;> omega
    have : c1 ≤ max n x.len ∨ c1 = 16 ∧ n = 0 ∧ x.len = 0 := by
      rw [k2]; split
      · omega
      · split <;> omega
    rcases k3 with k3 | k3 <;> rcases k4 with k4 | k4
    · omega
    · subst k3
      rcases this with h9 | h9
      · omega
      · have := hr.2 (by omega); omega
    · omega
    · have := hr.2 k3.2.2.1; omega
  · intro x' hx
    obtain ⟨k1, c1, c2, k2, k3, k4⟩ := key 0 x' hx
    have hr := Bb.round_le c2
    have h9 : c1 = x.len ∧ 0 < x.len ∨ c1 = 16 ∧ x.len = 0 := by
      by_cases hz : 0 < x.len
      · left; rw [k2, if_pos hz]; exact ⟨rfl, hz⟩
      · right; rw [k2, if_neg hz, if_pos rfl]; exact ⟨rfl, by omega⟩
    have e : c2 = c1 := by
      rcases k3 with k3 | k3
      · exact k3
      · omega
    rw [e] at hr k4
    rcases h9 with h9 | h9
    · rcases k4 with k4 | k4 <;> omega
    · have := hr.2 (by omega)
      rcases k4 with k4 | k4 <;> omega

theorem C14_waste_demo : ∃ x y es x', Bb.run (fun n => List.replicate n 7) [.appendFill 17 1] Bb.empty Bb.empty = some (x, y, es) ∧ x.cap = 32 ∧ x.reserve (fun n => List.replicate n 7) 40 = some (x', none) ∧ x'.cap = 64 :=
  ⟨_, _, _, _, rfl, by decide +kernel, rfl, by decide +kernel⟩

/-- Non-vacuity of C14. -/
example : (Bb.run (fun n => List.replicate n 7) [.appendFill 17 1, .shrink, .append (some [1]), .clear, .shrink, .reserve 4294967296] Bb.empty Bb.empty).map
    (fun r => (r.1.cap, r.1.size, r.2.2)) = some (16, 0, [none, none, none, none, none, some .lengthError]) := by decide +kernel

/-- C15, the two-argument overload is as documented: a trailing NUL is dropped, then the bytes are appended. -/
theorem C15_append2_with_length (junk : Nat → Bytes) (hj : ∀ n, (junk n).length = n) (ops : List BbOp) (x y : Bb) (es : List (Option BbExc))
    (h : Bb.run junk ops Bb.empty Bb.empty = some (x, y, es)) (s : Bytes) (hfit : (dropNul x.content).length + s.length ≤ 4294967295) :
    ∃ x', x.append2 junk (some s) = some (x', none) ∧ x'.content = dropNul x.content ++ s := by
  obtain ⟨x', y', es', h1, h2, _, _⟩ := Bb.run_spec hj ops Bb.empty_wf Bb.empty_wf
  rw [h] at h1
  cases h1
  obtain ⟨b, e, e1, _, e3⟩ := Bb.append2_spec hj h2 (some s)
  unfold IdealAppend at e3
  rw [Option.getD_some, if_pos hfit] at e3
  exact ⟨b, by rw [e1, e3.2], e3.1⟩

/-- C15 (partial; the one-argument overload is as documented only if the buffer does not end with NUL). -/
theorem C15_append2_partial (junk : Nat → Bytes) (hj : ∀ n, (junk n).length = n) (ops : List BbOp) (x y : Bb) (es : List (Option BbExc))
    (h : Bb.run junk ops Bb.empty Bb.empty = some (x, y, es)) (s : Bytes) (hfit : x.content.length + s.length + 1 ≤ 4294967295)
    (hend : x.content.getLast? ≠ some 0) :
    ∃ x', x.append2Str junk s = some (x', none) ∧ x'.content = dropNul x.content ++ s ++ [0] := by
  obtain ⟨x', y', es', h1, h2, _, _⟩ := Bb.run_spec hj ops Bb.empty_wf Bb.empty_wf
  rw [h] at h1
  cases h1
  obtain ⟨b, e, e1, _, e3⟩ := Bb.append_spec hj h2 (some (s ++ [0]))
  unfold IdealAppend at e3
  rw [Option.getD_some, if_pos (by simp; omega)] at e3
  refine ⟨b, by unfold Bb.append2Str; rw [e1, e3.2], ?_⟩
  rw [e3.1]
  simp [dropNul, hend]

/-- C15 is false in general: the one-argument overload never drops a trailing NUL, it stays in the middle of the result. -/
theorem C15_append2_keeps_inner_nul (junk : Nat → Bytes) (hj : ∀ n, (junk n).length = n) (ops : List BbOp) (x y : Bb) (es : List (Option BbExc))
    (h : Bb.run junk ops Bb.empty Bb.empty = some (x, y, es)) (s t : Bytes) (hfit : x.content.length + s.length + 1 ≤ 4294967295)
    (hend : x.content = t ++ [0]) :
    ∃ x', x.append2Str junk s = some (x', none) ∧ x'.content = t ++ [0] ++ s ++ [0] := by
  obtain ⟨x', y', es', h1, h2, _, _⟩ := Bb.run_spec hj ops Bb.empty_wf Bb.empty_wf
  rw [h] at h1
  cases h1
  obtain ⟨b, e, e1, _, e3⟩ := Bb.append_spec hj h2 (some (s ++ [0]))
  unfold IdealAppend at e3
  rw [Option.getD_some, if_pos (by simp; omega)] at e3
  refine ⟨b, by unfold Bb.append2Str; rw [e1, e3.2], ?_⟩
  rw [e3.1, hend]
  simp

/-- A witness: `append2("a")`, `append2("b")`. -/
theorem C15_append2_inner_nul :
    (Bb.run (fun n => List.replicate n 7) [.append2Str [97], .append2Str [98]] Bb.empty Bb.empty).map (fun r => r.1.content) = some [97, 0, 98, 0] := by decide +kernel

/-- C15: the documented example does end with length 13 (none of its one-argument calls meets a trailing NUL). -/
theorem C15_documented_example :
    (Bb.run (fun n => List.replicate n 7) [.append (some [49]), .append2Str [50, 51], .append2 (some [52, 53, 54, 0]), .append2 (some [55, 56, 57]), .append2Str [48, 48, 48]]
      Bb.empty Bb.empty).map (fun r => r.1.size) = some 13 := by decide +kernel

/-- C13 does not extend to aliasing: assigning a buffer to itself empties it, whatever it contained, ... -/
theorem C13_self_assign_loses_content (junk : Nat → Bytes) (hj : ∀ n, (junk n).length = n) (x : Bb) (h : x.Wf) :
    ∃ x', x.assignSelf junk = some (x', none) ∧ x'.content = [] := by
  obtain ⟨b1, e1, e2, e3, e4, _⟩ := (Bb.resize_spec hj h 0).1 (by omega)
  have hc : b1.content = [] := List.length_eq_zero_iff.mp e4
  refine ⟨b1, ?_, hc⟩
  unfold Bb.assignSelf
  rw [e1]
  simp only [BbRes.andThen, Bb.arg]
  cases hm : b1.mem with
  | none => simp [Bb.append]
  | some m => simp [Bb.append, hc]

/-- ... and appending a buffer to itself reads freed memory when it has to grow. -/
theorem C13_self_append_use_after_free :
    ((Bb.empty.appendFill (fun n => List.replicate n 7) 16 1).bind (fun r => r.1.appendSelf (fun n => List.replicate n 7))) = none := by decide +kernel

end StAsio
