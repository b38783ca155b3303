import Verif.Spec.Frames
import Verif.Lemmas.Stream
/-! Lemmas about the ideal frame decoder. -/
set_option autoImplicit false
namespace StAsio

def Tail.rest : Tail → Bytes
  | .incomplete r => r
  | .bad r => r

def Tail.app (b : Bytes) : Tail → Tail
  | .incomplete r => .incomplete (r ++ b)
  | .bad r => .bad (r ++ b)

/-- The decoder interface used by the simulation argument, derived from `frames`. -/
def frameDec (hl maxLen : Nat) (stripped : Bool) : Decoder := fun s =>
  (visible hl stripped (frames hl maxLen s).1,
   match (frames hl maxLen s).2 with
   | .incomplete r => some r
   | .bad _ => none)

theorem frames_short {hl maxLen : Nat} {s : Bytes} (h : s.length < hl) : frames hl maxLen s = ([], .incomplete s) := by
  rw [frames]; simp [h]

theorem frames_badHead {hl maxLen : Nat} {s : Bytes} (h0 : 0 < hl) (h : hl ≤ s.length)
    (hb : beVal (s.take hl) < hl ∨ maxLen < beVal (s.take hl)) : frames hl maxLen s = ([], .bad s) := by
  rw [frames]; rw [if_neg (by omega)]; simp [hb]

theorem frames_wait {hl maxLen : Nat} {s : Bytes} (h0 : 0 < hl) (h : hl ≤ s.length)
    (hb : ¬ (beVal (s.take hl) < hl ∨ maxLen < beVal (s.take hl))) (hw : s.length < beVal (s.take hl)) :
    frames hl maxLen s = ([], .incomplete s) := by
  rw [frames]; rw [if_neg (by omega)]; simp [hb, hw]

theorem frames_one {hl maxLen : Nat} {s : Bytes} (h0 : 0 < hl) (h : hl ≤ s.length)
    (hb : ¬ (beVal (s.take hl) < hl ∨ maxLen < beVal (s.take hl))) (hw : beVal (s.take hl) ≤ s.length) :
    frames hl maxLen s = (s.take (beVal (s.take hl)) :: (frames hl maxLen (s.drop (beVal (s.take hl)))).1,
      (frames hl maxLen (s.drop (beVal (s.take hl)))).2) := by
  rw [frames]; rw [if_neg (by omega)]; simp [hb, Nat.not_lt.mpr hw]

/-- No byte is lost or invented by the ideal decoder. -/
theorem frames_flatten (hl maxLen : Nat) (s : Bytes) :
    (frames hl maxLen s).1.flatten ++ (frames hl maxLen s).2.rest = s := by
  fun_induction frames hl maxLen s with
  | case1 s h => simp [Tail.rest]
  | case2 s h n hb => simp [Tail.rest]
  | case3 s h n hb hw => simp [Tail.rest]
  | case4 s h n hb hw r ih =>
    simp only [List.flatten_cons, List.append_assoc]
    rw [ih]; exact List.take_append_drop _ _

theorem take_take_append {α} (a b : List α) (n : Nat) (h : n ≤ a.length) : (a ++ b).take n = a.take n := by
  rw [List.take_append_of_le_length h]

/-- Incremental decoding. -/
theorem frames_append (hl maxLen : Nat) (h0 : 0 < hl) (s b : Bytes) :
    frames hl maxLen (s ++ b) =
      match (frames hl maxLen s).2 with
      | .incomplete r => ((frames hl maxLen s).1 ++ (frames hl maxLen (r ++ b)).1, (frames hl maxLen (r ++ b)).2)
      | .bad r => ((frames hl maxLen s).1, .bad (r ++ b)) := by
  fun_induction frames hl maxLen s with
  | case1 s h => simp
  | case2 s h n hb =>
    have hl1 : hl ≤ s.length := by omega
    have ht : (s ++ b).take hl = s.take hl := List.take_append_of_le_length hl1
    simp only
    rw [frames_badHead h0 (by simp; omega) (by rw [ht]; exact hb)]
  | case3 s h n hb hw => simp
  | case4 s h n hb hw r ih =>
    have hl1 : hl ≤ s.length := by omega
    have ht : (s ++ b).take hl = s.take hl := List.take_append_of_le_length hl1
    have hn : n ≤ s.length := by omega
    have hd : (s ++ b).drop n = s.drop n ++ b := List.drop_append_of_le_length hn
    have htn : (s ++ b).take n = s.take n := List.take_append_of_le_length hn
    have hne : beVal ((s ++ b).take hl) = n := by rw [ht]
    rw [frames_one h0 (by simp; omega) (by rw [ht]; exact hb) (by rw [ht]; simp; omega)]
    rw [hne, hd, htn, ih]
    simp only [r]
    split <;> simp

theorem visible_append (hl : Nat) (st : Bool) (a b : List Bytes) :
    visible hl st (a ++ b) = visible hl st a ++ visible hl st b := by
  simp [visible]

theorem frameDec_incremental (hl maxLen : Nat) (h0 : 0 < hl) (st : Bool) : Incremental (frameDec hl maxLen st) where
  nil := by simp [frameDec, frames_short (s := []) (by simpa using h0), visible]
  more := by
    intro a b ms p h
    simp only [frameDec] at h ⊢
    rw [frames_append hl maxLen h0 a b]
    split at h
    · next r heq =>
      simp only [Prod.mk.injEq, Option.some.injEq] at h
      obtain ⟨h1, h2⟩ := h
      subst h2
      simp only [heq, visible_append, h1]
    · simp at h
  bad := by
    intro a b ms h
    simp only [frameDec] at h ⊢
    rw [frames_append hl maxLen h0 a b]
    split at h
    · simp at h
    · next r heq =>
      simp only [Prod.mk.injEq] at h
      simp only [heq, h.1]

/-- The pending part is stable: it contains no complete frame and no malformed head. -/
theorem frames_rest (hl maxLen : Nat) (s r : Bytes) (h : (frames hl maxLen s).2 = .incomplete r) :
    frames hl maxLen r = ([], .incomplete r) := by
  fun_induction frames hl maxLen s with
  | case1 s hs => simp at h; subst h; rw [frames]; simp [hs]
  | case2 s hs n hb => simp at h
  | case3 s hs n hb hw =>
    simp at h; subst h; rw [frames, if_neg hs]; simp only; rw [if_neg hb, if_pos hw]
  | case4 s hs n hb hw r' ih => exact ih h

theorem frames_lengths (hl maxLen : Nat) (s : Bytes) : ∀ f ∈ (frames hl maxLen s).1, hl ≤ f.length ∧ f.length ≤ maxLen := by
  fun_induction frames hl maxLen s with
  | case1 s h => simp
  | case2 s h n hb => simp
  | case3 s h n hb hw => simp
  | case4 s h n hb hw r ih =>
    intro f hf
    rcases List.mem_cons.mp hf with rfl | hf
    · simp only [List.length_take]; omega
    · exact ih f hf

theorem wire_length (hl : Nat) (b : Bytes) : (wire hl b).length = hl + b.length := by
  simp [wire, be_length]

/-- Decoding a complete well-formed frame. -/
theorem frames_wire {hl maxLen : Nat} (h0 : 0 < hl) {b : Bytes} (h1 : hl + b.length ≤ maxLen)
    (h2 : hl + b.length < 256 ^ hl) (s : Bytes) :
    frames hl maxLen (wire hl b ++ s) = (wire hl b :: (frames hl maxLen s).1, (frames hl maxLen s).2) := by
  have hw := wire_length hl b
  have ht : (wire hl b ++ s).take hl = be hl (hl + b.length) := by
    rw [wire, List.append_assoc, List.take_append_of_le_length (by simp [be_length]), List.take_of_length_le (by simp [be_length])]
  have hv : beVal ((wire hl b ++ s).take hl) = hl + b.length := by rw [ht]; exact beVal_be_of_lt h2
  rw [frames_one h0 (by simp; omega) (by rw [hv]; omega) (by rw [hv]; simp; omega), hv, ← hw]
  simp

/-- A strict prefix of a well-formed frame is an incomplete frame. -/
theorem frames_wire_prefix {hl maxLen : Nat} (h0 : 0 < hl) {b : Bytes} (h1 : hl + b.length ≤ maxLen)
    (h2 : hl + b.length < 256 ^ hl) (n : Nat) (hn : n < hl + b.length) :
    frames hl maxLen ((wire hl b).take n) = ([], .incomplete ((wire hl b).take n)) := by
  have hw := wire_length hl b
  have hlen : ((wire hl b).take n).length = n := by simp; omega
  rcases Nat.lt_or_ge n hl with h | h
  · exact frames_short (by omega)
  · have ht : ((wire hl b).take n).take hl = be hl (hl + b.length) := by
      rw [List.take_take, Nat.min_eq_left h, wire, List.take_append_of_le_length (by simp [be_length]),
        List.take_of_length_le (by simp [be_length])]
    have hv : beVal (((wire hl b).take n).take hl) = hl + b.length := by rw [ht]; exact beVal_be_of_lt h2
    exact frames_wait h0 (by omega) (by rw [hv]; omega) (by rw [hv]; omega)

theorem visible_wire (hl : Nat) (st : Bool) (b : Bytes) :
    visible hl st [wire hl b] = if b = [] then [] else [if st then b else wire hl b] := by
  by_cases hb : b = []
  · subst hb; simp [visible, wire, be_length]
  · have : 0 < b.length := List.length_pos_iff.mpr hb
    have hd : (wire hl b).drop hl = b := by
      rw [wire, List.drop_append_of_le_length (by simp [be_length]), List.drop_of_length_le (by simp [be_length])]; rfl
    simp [visible, wire_length, hb, this, hd]

/-- On a prefix of a correctly packed stream the ideal decoder yields exactly the completely arrived items. -/
theorem frames_arrived {hl maxLen : Nat} (h0 : 0 < hl) (st : Bool) :
    ∀ (items : List Item), (∀ b ∈ items, hl + b.length ≤ maxLen ∧ hl + b.length < 256 ^ hl) →
      ∀ (s later : Bytes), s ++ later = (items.map (wire hl)).flatten →
        visible hl st (frames hl maxLen s).1 = arrived hl st items s.length ∧
          ∃ r, (frames hl maxLen s).2 = .incomplete r := by
  intro items
  induction items with
  | nil =>
    intro _ s later h
    simp at h
    obtain ⟨rfl, rfl⟩ := h
    rw [frames_short (s := []) (by simpa using h0)]
    simp [visible, arrived]
  | cons b rest ih =>
    intro hi s later h
    obtain ⟨h1, h2⟩ := hi b (by simp)
    simp only [List.map_cons, List.flatten_cons] at h
    have hw := wire_length hl b
    by_cases hn : s.length < hl + b.length
    · have hs : s = (wire hl b).take s.length := by
        have := congrArg (List.take s.length) h
        rw [List.take_append_of_le_length (Nat.le_refl _), List.take_of_length_le (Nat.le_refl _),
          List.take_append_of_le_length (by omega)] at this
        exact this
      have hf := frames_wire_prefix h0 h1 h2 s.length hn
      rw [← hs] at hf
      rw [hf]
      simp [visible, arrived, hn]
    · have hs : s = wire hl b ++ s.drop (wire hl b).length := by
        have := congrArg (List.take (wire hl b).length) h
        rw [List.take_append_of_le_length (by omega), List.take_append_of_le_length (Nat.le_refl _),
          List.take_of_length_le (Nat.le_refl _)] at this
        conv => lhs; rw [← List.take_append_drop (wire hl b).length s, this]
      generalize s.drop (wire hl b).length = s' at hs
      subst hs
      rw [List.append_assoc] at h
      have h' := List.append_cancel_left h
      obtain ⟨ih1, r, ih2⟩ := ih (fun b hb => hi b (by simp [hb])) s' later h'
      rw [frames_wire h0 h1 h2]
      refine ⟨?_, r, ih2⟩
      have : wire hl b :: (frames hl maxLen s').1 = [wire hl b] ++ (frames hl maxLen s').1 := rfl
      simp only [this, visible_append, visible_wire, ih1]
      rw [arrived, if_neg hn]
      simp [hw]

end StAsio
