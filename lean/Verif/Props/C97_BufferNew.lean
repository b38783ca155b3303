import Verif.Spec.BufferNew
import Verif.Props.C13_C15_BasicBuffer
/-!
# C97: a new basic_buffer contains what it was made from

`Bb.make junk a` constructs a buffer with the arguments `a` (`none`: memory is read that is not the argument's), `a.wanted` and `a.size` (Spec/BufferNew.lean) are the content and the size asked for.
-/
set_option autoImplicit false
namespace StAsio

theorem Bb.content_empty : Bb.empty.content = [] := rfl

theorem Bb.make_append {junk : Nat → Bytes} (hj : ∀ n, (junk n).length = n) (s : Option Bytes) :
    ((s.getD []).length ≤ 4294967295 → ∃ b, Bb.empty.append junk s = some (b, none) ∧ b.Wf ∧ b.content = s.getD []) ∧
    (4294967295 < (s.getD []).length → ∃ b, Bb.empty.append junk s = some (b, some .lengthError)) := by
  obtain ⟨b, e, h1, h2, h3⟩ := Bb.append_spec hj Bb.empty_wf s
  unfold IdealAppend at h3
  rw [Bb.content_empty] at h3
  constructor
  · intro hl
    rw [if_pos (by simpa using hl)] at h3
    obtain ⟨h3, rfl⟩ := h3
    exact ⟨b, h1, h2, by simpa using h3⟩
  · intro hl
    rw [if_neg (by simpa using hl)] at h3
    obtain ⟨_, rfl⟩ := h3
    exact ⟨b, h1⟩

theorem Bb.make_fill {junk : Nat → Bytes} (hj : ∀ n, (junk n).length = n) (n : Nat) (c : Byte) :
    (n ≤ 4294967295 → ∃ b, Bb.empty.appendFill junk n c = some (b, none) ∧ b.Wf ∧ b.content = List.replicate n c) ∧
    (4294967295 < n → ∃ b, Bb.empty.appendFill junk n c = some (b, some .lengthError)) := by
  obtain ⟨b, e, h1, h2, h3⟩ := Bb.appendFill_spec hj Bb.empty_wf n c
  unfold IdealAppend at h3
  rw [Bb.content_empty] at h3
  constructor
  · intro hl
    rw [if_pos (by simpa using hl)] at h3
    obtain ⟨h3, rfl⟩ := h3
    exact ⟨b, h1, h2, by simpa using h3⟩
  · intro hl
    rw [if_neg (by simpa using hl)] at h3
    obtain ⟨_, rfl⟩ := h3
    exact ⟨b, h1⟩

theorem Bb.make_ptr {junk : Nat → Bytes} (hj : ∀ n, (junk n).length = n) (m : Bytes) (n : Nat) (hn : n ≤ m.length) :
    (n ≤ 4294967295 → ∃ b, Bb.empty.appendPtr junk (some m) n = some (b, none) ∧ b.Wf ∧ b.content = m.take n) ∧
    (4294967295 < n → ∃ b, Bb.empty.appendPtr junk (some m) n = some (b, some .lengthError)) := by
  simp only [Bb.appendPtr]
  constructor
  · intro hl
    by_cases h0 : 0 < n
    · have ht : Bb.empty.tooLong n = false := by simp [Bb.tooLong, Bb.empty, bbMax]; omega
      rw [if_pos h0, ht, if_neg (by simp), readAt, if_pos (by omega)]
      simpa using (Bb.make_append hj (some (m.take n))).1 (by simp; omega)
    · rw [if_neg h0]
      have : n = 0 := by omega
      subst this
      exact ⟨Bb.empty, rfl, Bb.empty_wf, by simp [Bb.content_empty]⟩
  · intro hl
    have ht : Bb.empty.tooLong n = true := by simp [Bb.tooLong, Bb.empty, bbMax]; omega
    rw [if_pos (by omega), ht, if_pos rfl]
    exact ⟨_, rfl⟩

theorem Bb.make_len {junk : Nat → Bytes} (hj : ∀ n, (junk n).length = n) (n : Nat) :
    (n ≤ 4294967295 → ∃ b, Bb.empty.resize junk n = some (b, none) ∧ b.Wf ∧ b.content.length = n) ∧
    (4294967295 < n → ∃ b, Bb.empty.resize junk n = some (b, some .lengthError)) := by
  obtain ⟨h1, h2⟩ := Bb.resize_spec hj Bb.empty_wf n
  refine ⟨fun hl => ?_, fun hl => ⟨_, h2 hl⟩⟩
  obtain ⟨b, g1, g2, g3, g4, _⟩ := h1 hl
  exact ⟨b, g1, g2, g4⟩

/-- C97, all constructors but the one for a part of a string: if what is asked for is at most UINT_MAX bytes, the new buffer has the content asked for (only the size, where no content is given), and its size and capacity are as C14 says,
so that C13 and C14 apply to it; otherwise std::length_error is thrown. -/
theorem C97_made_partial (junk : Nat → Bytes) (hj : ∀ n, (junk n).length = n) (a : BbNew) (ha : a.Proper junk) :
    (a.size ≤ 4294967295 → ∃ b, Bb.make junk a = some (b, none) ∧ b.content.length = a.size ∧ (∀ w, a.wanted = some w → b.content = w) ∧
      b.size = a.size ∧ b.size ≤ b.cap ∧ b.cap ≤ 4294967295 ∧ (b.mem.getD []).length = b.cap) ∧
    (4294967295 < a.size → ∃ b, Bb.make junk a = some (b, some .lengthError)) := by
  have key : (a.size ≤ 4294967295 → ∃ b, Bb.make junk a = some (b, none) ∧ b.Wf ∧ b.content.length = a.size ∧ ∀ w, a.wanted = some w → b.content = w) ∧
      (4294967295 < a.size → ∃ b, Bb.make junk a = some (b, some .lengthError)) := by
    have lift : ∀ {r : BbRes} {w : Bytes}, ((w.length ≤ 4294967295 → ∃ b, r = some (b, none) ∧ b.Wf ∧ b.content = w) ∧ (4294967295 < w.length → ∃ b, r = some (b, some .lengthError))) →
        ((w.length ≤ 4294967295 → ∃ b, r = some (b, none) ∧ b.Wf ∧ b.content.length = w.length ∧ ∀ v, some w = some v → b.content = v) ∧ (4294967295 < w.length → ∃ b, r = some (b, some .lengthError))) := by
      intro r w h
      refine ⟨fun hl => ?_, h.2⟩
      obtain ⟨b, h1, h2, h3⟩ := h.1 hl
      exact ⟨b, h1, h2, by rw [h3], fun v hv => by cases hv; exact h3⟩
    cases ha with
    | dflt => exact lift (w := []) ⟨fun _ => ⟨Bb.empty, rfl, Bb.empty_wf, rfl⟩, by simp⟩
    | len n =>
      refine ⟨fun hl => ?_, (Bb.make_len hj n).2⟩
      obtain ⟨b, h1, h2, h3⟩ := (Bb.make_len hj n).1 hl
      exact ⟨b, h1, h2, h3, by intro w hw; cases hw⟩
    | int n =>
      simp only [BbNew.size, Bb.make]
      by_cases h0 : 0 < n
      · rw [if_pos h0]
        refine ⟨fun hl => ?_, (Bb.make_len hj n.toNat).2⟩
        obtain ⟨b, h1, h2, h3⟩ := (Bb.make_len hj n.toNat).1 hl
        exact ⟨b, h1, h2, h3, by intro w hw; cases hw⟩
      · rw [if_neg h0]
        have : n.toNat = 0 := by omega
        rw [this]
        exact ⟨fun _ => ⟨Bb.empty, rfl, Bb.empty_wf, rfl, by intro w hw; cases hw⟩, by omega⟩
    | fill n c =>
      refine lift (w := List.replicate n c) ?_
      rw [List.length_replicate]
      exact Bb.make_fill hj n c
    | cstr m hm =>
      refine lift (w := m.takeWhile (· ≠ 0)) ?_
      simp only [Bb.make, ntbs, if_pos hm]
      exact Bb.make_append hj (some _)
    | null n => exact lift (w := ([] : Bytes).take n) ⟨fun _ => ⟨Bb.empty, rfl, Bb.empty_wf, by simp [Bb.content_empty]⟩, by simp⟩
    | bytes m n hn =>
      refine lift (w := m.take n) ?_
      rw [List.length_take, Nat.min_eq_left hn]
      exact Bb.make_ptr hj m n hn
    | array a n =>
      refine lift (w := a.take n) ?_
      rw [List.length_take]
      have := Bb.make_ptr hj a (min a.length n) (Nat.min_le_left _ _)
      rw [Nat.min_comm] at this
      simp only [Bb.make]
      rw [Nat.min_comm a.length n]
      have e : a.take (min n a.length) = a.take n := by
        rw [List.take_eq_take_iff]; omega
      rw [e] at this
      exact this
    | constArray a n hn =>
      refine lift (w := a.take n) ?_
      rw [List.length_take, Nat.min_eq_left hn]
      exact Bb.make_ptr hj a n hn
    | copy ops x y es h =>
      refine lift (w := x.content) ?_
      have := Bb.make_append hj x.arg
      rw [Bb.arg_getD] at this
      exact this
    | other o => exact lift (w := o) (Bb.make_append hj (some o))
    | sub o pos =>
      refine lift (w := o.drop pos) ?_
      simp only [Bb.make]
      split
      · exact Bb.make_append hj (some _)
      · next h =>
        rw [List.drop_eq_nil_of_le (by omega)]
        exact ⟨fun _ => ⟨Bb.empty, rfl, Bb.empty_wf, rfl⟩, by simp⟩
  refine ⟨fun hl => ?_, key.2⟩
  obtain ⟨b, h1, h2, h3, h4⟩ := key.1 hl
  refine ⟨b, h1, h3, h4, by rw [h2.size, ← h2.content_len, h3], by rw [h2.size]; exact h2.len, h2.max, ?_⟩
  cases hm : b.mem with
  | none => simp [h2.null hm]
  | some m => simpa using h2.block m hm

/-- C97 is false of `basic_buffer(other, pos, len)`, for every string, position inside of it and number of bytes: the result is not a part of the string, but `other.size() + pos` times the character whose code is the number of bytes. -/
theorem C97_fails_part (junk : Nat → Bytes) (hj : ∀ n, (junk n).length = n) (o : Bytes) (pos n : Nat) (hp : pos < o.length) (hl : o.length + pos ≤ 4294967295) (hn : pos + n < 2 ^ 64) :
    ∃ b, Bb.make junk (.subLen o pos n) = some (b, none) ∧ b.content = List.replicate (o.length + pos) (UInt8.ofNat (min n (o.length - pos))) ∧ (0 < pos ∨ n < o.length → b.content ≠ (o.drop pos).take n) := by
  obtain ⟨b, h1, h2, h3⟩ := (Bb.make_fill hj (o.length + pos) (UInt8.ofNat (subCount o.length pos n))).1 hl
  refine ⟨b, ?_, ?_, ?_⟩
  · simp only [Bb.make, if_pos hp, h1]
  · rw [h3, subCount, Nat.mod_eq_of_lt hn]
    split
    · rw [Nat.min_eq_right (by omega)]
    · rw [Nat.min_eq_left (by omega)]
  · intro hh he
    have := congrArg List.length he
    rw [h3] at this
    simp at this
    omega

/-- The second and third characters of "hello": six times the character with code 2 instead. -/
theorem C97_demo_part : (Bb.make (fun n => List.replicate n 7) (.subLen [104, 101, 108, 108, 111] 1 2)).map (fun r => (r.1.content, r.2)) = some ([2, 2, 2, 2, 2, 2], none) ∧
    (BbNew.subLen [104, 101, 108, 108, 111] 1 2).wanted = some [101, 108] := by decide +kernel

/-- Whatever the size of the array, the overload for arrays of constant characters reads as many bytes as it is told to, though a test of the size is written down for it (line 143). -/
theorem C97_fails_array (junk : Nat → Bytes) (a : Bytes) (n : Nat) (h : a.length < n) (hn : n ≤ 4294967295) : Bb.make junk (.constArray a n) = none := by
  simp only [Bb.make, Bb.appendPtr]
  have ht : Bb.empty.tooLong n = false := by simp [Bb.tooLong, Bb.empty, bbMax]; omega
  rw [if_pos (by omega), ht, if_neg (by simp), readAt, if_neg (by omega)]
  rfl

/-- Non-vacuity of C97_made_partial, and the order of the arguments. -/
theorem C97_demo : ∃ x y es, Bb.run (fun n => List.replicate n 7) [.append (some [1, 2, 3, 4]), .erase 1 2] Bb.empty Bb.empty = some (x, y, es) ∧
    [BbNew.dflt, .fill 3 9, .cstr (some [65, 66, 0, 67]), .bytes (some [1, 2, 3]) 2, .array [1, 2, 3] 7, .constArray [1, 2, 3] 2, .copy x, .other [5, 6], .sub [5, 6, 7] 1, .int (-3)].map
      (fun a => (Bb.make (fun n => List.replicate n 7) a).map (fun r => (r.1.content, r.2))) =
    [some ([], none), some ([9, 9, 9], none), some ([65, 66], none), some ([1, 2], none), some ([1, 2, 3], none), some ([1, 2], none), some ([1, 4], none), some ([5, 6], none), some ([6, 7], none), some ([], none)] := by
  have h : ∃ r, Bb.run (fun n => List.replicate n 7) [.append (some [1, 2, 3, 4]), .erase 1 2] Bb.empty Bb.empty = some r := ⟨_, rfl⟩
  obtain ⟨⟨x, y, es⟩, h⟩ := h
  refine ⟨x, y, es, h, ?_⟩
  have e : some (x, y, es) = some _ := h.symm.trans rfl
  cases e
  decide +kernel

end StAsio
