import Verif.Model.GroupLinks
/-!
C85: the links of echo_client are distributed over its sending threads.
-/
set_option autoImplicit false
namespace StAsio

/-- The groups so far: full ones, the one in work, empty ones. -/
structure Gl.Shape (num per left0 : Nat) (s : Gl) (links : List Nat) (A : List (List Nat)) (g : List Nat) (r : Nat) : Prop where
  groups : s.groups = A ++ g :: List.replicate r []
  index : s.index = some A.length
  num : num = A.length + 1 + r
  left : s.left = left0 - (A.length + 1)
  full : ∀ a ∈ A, a.length = per ∨ a.length = per + 1
  work : g.length + s.this = per ∨ g.length + s.this = per + 1
  done : A.flatten ++ g = links
  count : links.length + s.this = (A.length + 1) * per + Nat.min (A.length + 1) left0

/-- At the beginning, or as above. -/
def Gl.Inv (num per left0 : Nat) (s : Gl) (done : List Nat) : Prop :=
  (s = { groups := List.replicate num [], index := none, this := 0, left := left0 } ∧ done = []) ∨ ∃ A g r, Gl.Shape num per left0 s done A g r

theorem Gl.put_shape {num per left0 : Nat} {s : Gl} {done : List Nat} {A : List (List Nat)} {g : List Nat} {r : Nat} (h : Gl.Shape num per left0 s done A g r) (ht : 0 < s.this) (l : Nat) :
    ∃ s', s.put per l = some s' ∧ Gl.Shape num per left0 s' (done ++ [l]) A (g ++ [l]) r := by
  have hturn : s.turn per = s := by simp [Gl.turn, Nat.ne_of_gt ht]
  have hl : A.length < s.groups.length := by rw [h.groups]; simp
  refine ⟨_, by simp only [Gl.put, hturn, h.index]; rw [if_pos ⟨ht, hl⟩], ?_⟩
  refine ⟨?_, rfl, h.num, h.left, h.full, ?_, ?_, ?_⟩
  · simp only [h.groups]; simp
  · have := h.work; simp only [List.length_append, List.length_singleton]; omega
  · rw [← h.done, List.append_assoc]
  · have := h.count; simp only [List.length_append, List.length_singleton]; omega

theorem Gl.put_inv {num per left0 : Nat} (hp : 0 < per) (hn : 0 < num) (hlt : left0 < num) {s : Gl} {done : List Nat} (h : Gl.Inv num per left0 s done) (hd : done.length < num * per + left0) (l : Nat) :
    ∃ s', s.put per l = some s' ∧ Gl.Inv num per left0 s' (done ++ [l]) := by
  have key : ∀ s1 : Gl, s.turn per = s1 → 0 < s1.this → (∃ A g r, Gl.Shape num per left0 s1 done A g r) → ∃ s', s.put per l = some s' ∧ Gl.Inv num per left0 s' (done ++ [l]) := by
    intro s1 h1 ht ⟨A, g, r, hS⟩
    obtain ⟨s', h2, h3⟩ := Gl.put_shape hS ht l
    refine ⟨s', ?_, .inr ⟨_, _, _, h3⟩⟩
    have h4 : s1.turn per = s1 := by simp [Gl.turn, Nat.ne_of_gt ht]
    simp only [Gl.put, h1] at *
    simpa only [h4] using h2
  cases h with
  | inl h =>
    obtain ⟨rfl, rfl⟩ := h
    obtain ⟨n, rfl⟩ : ∃ n, num = n + 1 := ⟨num - 1, by omega⟩
    by_cases hl : 0 < left0
    · refine key _ (by simp only [Gl.turn, if_true]; rw [if_pos hl]) (by simp) ⟨[], [], n, ?_⟩
      refine ⟨by simp [List.replicate_succ], rfl, by simp; omega, rfl, by simp, by simp, by simp, ?_⟩
      have : Nat.min (([] : List (List Nat)).length + 1) left0 = 1 := by simp only [List.length_nil]; exact Nat.min_eq_left hl
      rw [this]; simp
    · refine key _ (by simp only [Gl.turn, if_true]; rw [if_neg hl]) (by simp; omega) ⟨[], [], n, ?_⟩
      refine ⟨by simp [List.replicate_succ], rfl, by simp; omega, by simp; omega, by simp, by simp, by simp, ?_⟩
      have : Nat.min (([] : List (List Nat)).length + 1) left0 = 0 := by simp only [List.length_nil]; exact (Nat.min_eq_right (by omega)).trans (by omega)
      rw [this]; simp
  | inr h =>
    obtain ⟨A, g, r, hS⟩ := h
    by_cases ht : s.this = 0
    · have hc := hS.count
      have hr : 0 < r := by
        false_or_by_contra
        have : A.length + 1 = num := by have := hS.num; omega
        rw [this, ht] at hc
        have : Nat.min num left0 = left0 := Nat.min_eq_right (by omega)
        omega
      obtain ⟨r, rfl⟩ : ∃ q, r = q + 1 := ⟨r - 1, by omega⟩
      have hm : (A.length + 1 + 1) * per = (A.length + 1) * per + per := Nat.succ_mul _ _
      have hw := hS.work
      have hfull : ∀ a ∈ A ++ [g], a.length = per ∨ a.length = per + 1 := by
        intro a ha
        cases List.mem_append.mp ha with
        | inl ha => exact hS.full a ha
        | inr ha => simp at ha; subst ha; omega
      have hg : s.groups = (A ++ [g]) ++ [] :: List.replicate r [] := by rw [hS.groups]; simp [List.replicate_succ]
      by_cases hl : 0 < s.left
      · refine key _ (by simp only [Gl.turn]; rw [if_pos ht, if_pos hl]) (by simp) ⟨A ++ [g], [], r, ?_⟩
        have hl' := hS.left
        have e1 : Nat.min (A.length + 1) left0 = A.length + 1 := Nat.min_eq_left (by omega)
        have e2 : Nat.min (A.length + 1 + 1) left0 = A.length + 1 + 1 := Nat.min_eq_left (by omega)
        refine ⟨hg, by simp [hS.index, Gl.succ], by have := hS.num; simp; omega, by simp; omega, hfull, by simp, by simp [← hS.done], ?_⟩
        simp only [List.length_append, List.length_singleton, hm, e2]; omega
      · refine key _ (by simp only [Gl.turn]; rw [if_pos ht, if_neg hl]) (by simp; omega) ⟨A ++ [g], [], r, ?_⟩
        have hl' := hS.left
        have e1 : Nat.min (A.length + 1) left0 = left0 := Nat.min_eq_right (by omega)
        have e2 : Nat.min (A.length + 1 + 1) left0 = left0 := Nat.min_eq_right (by omega)
        refine ⟨hg, by simp [hS.index, Gl.succ], by have := hS.num; simp; omega, by simp; omega, hfull, by simp, by simp [← hS.done], ?_⟩
        simp only [List.length_append, List.length_singleton, hm, e2]; omega
    · exact key s (by simp [Gl.turn, ht]) (by omega) ⟨A, g, r, hS⟩

theorem Gl.all_inv {num per left0 : Nat} (hp : 0 < per) (hn : 0 < num) (hlt : left0 < num) (links : List Nat) : ∀ {s : Gl} {done : List Nat}, Gl.Inv num per left0 s done → done.length + links.length ≤ num * per + left0 →
    ∃ s', Gl.all per s links = some s' ∧ Gl.Inv num per left0 s' (done ++ links) := by
  induction links with
  | nil => intro s done h _; exact ⟨s, rfl, by simpa using h⟩
  | cons l ls ih =>
    intro s done h hd
    simp only [List.length_cons] at hd
    obtain ⟨s1, h1, h2⟩ := Gl.put_inv hp hn hlt h (by omega) l
    obtain ⟨s2, h3, h4⟩ := ih h2 (by simp; omega)
    exact ⟨s2, by simp [Gl.all, h1, h3], by simpa using h4⟩

/-- **C85**: with at least one thread and at least one link, whatever their numbers are: there are as many groups as threads, or as links if they are fewer; every link is in exactly one group, in order; the sizes of two groups differ by
at most one, and no group is empty. -/
theorem C85_even {threads : Nat} {links : List Nat} (ht : 0 < threads) (hl : links ≠ []) :
    ∃ gs, groupLinks threads links.length links = some gs ∧ gs.length = min threads links.length ∧ gs.flatten = links ∧ (∀ a ∈ gs, ∀ b ∈ gs, a.length ≤ b.length + 1) ∧ ∀ a ∈ gs, a ≠ [] := by
  have hlen : 0 < links.length := List.length_pos_iff.mpr hl
  have hnum : 0 < Nat.min threads links.length := Nat.lt_min.mpr ⟨ht, hlen⟩
  have hle : Nat.min threads links.length ≤ links.length := Nat.min_le_right _ _
  simp only [groupLinks]
  rw [if_neg (by omega)]
  show ∃ gs : List (List Nat), _ ∧ gs.length = Nat.min threads links.length ∧ _
  generalize Nat.min threads links.length = num at *
  have hdm := Nat.div_add_mod links.length num
  have hmod := Nat.mod_lt links.length hnum
  have hper : 0 < links.length / num := Nat.div_pos hle hnum
  have hleft : links.length - num * (links.length / num) = links.length % num := by omega
  rw [hleft]
  generalize links.length / num = per at *
  generalize links.length % num = left0 at *
  obtain ⟨s, h1, h2⟩ := Gl.all_inv hper hnum hmod links (s := { groups := List.replicate num [], index := none, this := 0, left := left0 }) (done := []) (.inl ⟨rfl, rfl⟩) (by simp; omega)
  simp only [List.nil_append] at h2
  cases h2 with
  | inl h => exact absurd h.2 hl
  | inr h =>
    obtain ⟨A, g, r, hS⟩ := h
    have hc := hS.count
    have hn := hS.num
    have hmin : Nat.min (A.length + 1) left0 ≤ left0 := Nat.min_le_right _ _
    have hr : r = 0 := by
      false_or_by_contra
      rename_i hr
      have h3 : (A.length + 1) * per + per ≤ num * per := by
        rw [← Nat.succ_mul]; exact Nat.mul_le_mul_right _ (by omega)
      omega
    subst hr
    have hnum' : A.length + 1 = num := by omega
    rw [hnum'] at hc hmin
    have hw := hS.work
    have hall : ∀ a ∈ s.groups, a.length = per ∨ a.length = per + 1 := by
      intro a ha
      rw [hS.groups] at ha
      simp only [List.replicate_zero, List.mem_append, List.mem_singleton] at ha
      cases ha with
      | inl ha => exact hS.full a ha
      | inr ha => subst ha; omega
    refine ⟨s.groups, by rw [h1]; rfl, ?_, ?_, ?_, ?_⟩
    · rw [hS.groups]; simp; omega
    · rw [hS.groups, ← hS.done]; simp
    · intro a ha b hb; have := hall a ha; have := hall b hb; omega
    · intro a ha he; have := hall a ha; rw [he] at this; simp at this; omega

/-- **C85** (fewer links): if links go between the calls of size() and do_something_to_all, none of the others is lost and no group is accessed that does not exist. -/
theorem C85_fewer {threads size : Nat} {links : List Nat} (ht : 0 < threads) (hs : 0 < size) (hl : links.length ≤ size) : ∃ gs, groupLinks threads size links = some gs ∧ gs.length = min threads size ∧ gs.flatten = links := by
  have hnum : 0 < Nat.min threads size := Nat.lt_min.mpr ⟨ht, hs⟩
  have hle : Nat.min threads size ≤ size := Nat.min_le_right _ _
  simp only [groupLinks]
  rw [if_neg (by omega)]
  show ∃ gs : List (List Nat), _ ∧ gs.length = Nat.min threads size ∧ _
  generalize Nat.min threads size = num at *
  have hdm := Nat.div_add_mod size num
  have hmod := Nat.mod_lt size hnum
  have hper : 0 < size / num := Nat.div_pos hle hnum
  have hleft : size - num * (size / num) = size % num := by omega
  rw [hleft]
  generalize size / num = per at *
  generalize size % num = left0 at *
  obtain ⟨s, h1, h2⟩ := Gl.all_inv hper hnum hmod links (s := { groups := List.replicate num [], index := none, this := 0, left := left0 }) (done := []) (.inl ⟨rfl, rfl⟩) (by simp; omega)
  simp only [List.nil_append] at h2
  refine ⟨s.groups, by rw [h1]; rfl, ?_⟩
  cases h2 with
  | inl h => obtain ⟨rfl, rfl⟩ := h; simp
  | inr h =>
    obtain ⟨A, g, r, hS⟩ := h
    have := hS.num
    refine ⟨by rw [hS.groups]; simp; omega, by rw [hS.groups, ← hS.done]; simp⟩

example : groupLinks 3 8 [1, 2, 3, 4, 5, 6, 7, 8] = some [[1, 2, 3], [4, 5, 6], [7, 8]] := by decide
example : groupLinks 8 3 [1, 2] = some [[1], [2], []] := by decide

/-- **C85 is false** without links: group_num is 0, the division by it is undefined. -/
theorem C85_fails_none (threads : Nat) (links : List Nat) : groupLinks threads 0 links = none := by
  simp [groupLinks, Nat.min]

/-- **C85 is false** if a link is added between the calls of size() and do_something_to_all: it is put into a group that does not exist. -/
theorem C85_fails_more : groupLinks 2 2 [1, 2, 3] = none := by decide

end StAsio
