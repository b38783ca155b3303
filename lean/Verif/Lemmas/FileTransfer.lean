import Verif.Model.FileTransfer

/-!
# Lemmas about the file transfer: ranges, reading, writing
-/

set_option autoImplicit false

namespace StAsio

/-! ## slice and overwrite -/

theorem slice_length (f : Bytes) (off len : Nat) : (slice f off len).length = min len (f.length - off) := by
  simp [slice]

theorem slice_get (f : Bytes) (off len i : Nat) : (slice f off len)[i]? = if i < len then f[off + i]? else none := by
  simp only [slice, List.getElem?_take, List.getElem?_drop]

theorem slice_zero (f : Bytes) (off : Nat) : slice f off 0 = [] := by simp [slice]

theorem slice_append (f : Bytes) (off a b : Nat) (h : off + a ≤ f.length) : slice f off a ++ slice f (off + a) b = slice f off (a + b) := by
  apply List.ext_getElem?
  intro i
  have hl : (slice f off a).length = a := by rw [slice_length]; omega
  rw [List.getElem?_append, slice_get, slice_get, slice_get, hl]
  by_cases h1 : i < a
  · rw [if_pos h1, if_pos h1, if_pos (by omega)]
  · rw [if_neg h1]
    by_cases h2 : i - a < b
    · rw [if_pos h2, if_pos (by omega)]
      congr 1; omega
    · rw [if_neg h2, if_neg (by omega)]

theorem slice_take (f : Bytes) (off len n : Nat) (h : n ≤ len) : (slice f off len).take n = slice f off n := by
  simp [slice, List.take_take, Nat.min_eq_left h]

theorem slice_drop (f : Bytes) (off len n : Nat) : (slice f off len).drop n = slice f (off + n) (len - n) := by
  simp [slice, List.drop_take, List.drop_drop]

theorem overwrite_nil (f : Bytes) (off : Nat) : overwrite f off [] = f := by simp [overwrite]

theorem overwrite_length (f : Bytes) (off : Nat) (bs : Bytes) (h : bs ≠ []) : (overwrite f off bs).length = max f.length (off + bs.length) := by
  simp only [overwrite, if_neg h, List.length_append, List.length_take, List.length_replicate, List.length_drop]
  omega

theorem overwrite_get (f : Bytes) (off : Nat) (bs : Bytes) (h : bs ≠ []) (i : Nat) :
    (overwrite f off bs)[i]? = if i < off then (if i < f.length then f[i]? else some 0) else if i < off + bs.length then bs[i - off]? else f[i]? := by
  have hl : ((f ++ List.replicate (off - f.length) (0 : Byte)).take off).length = off := by
    simp only [List.length_append, List.length_take, List.length_replicate]; omega
  simp only [overwrite, if_neg h, List.append_assoc]
  rw [List.getElem?_append, hl]
  by_cases h1 : i < off
  · rw [if_pos h1, if_pos h1, List.getElem?_take, if_pos h1, List.getElem?_append]
    by_cases h2 : i < f.length
    · rw [if_pos h2, if_pos h2]
    · rw [if_neg h2, if_neg h2, List.getElem?_replicate, if_pos (by omega)]
  · rw [if_neg h1, if_neg h1, List.getElem?_append]
    by_cases h2 : i < off + bs.length
    · rw [if_pos (by omega), if_pos h2]
    · rw [if_neg (by omega), if_neg h2, List.getElem?_drop]
      congr 1; omega

theorem overwrite_overwrite (f : Bytes) (off : Nat) (a b : Bytes) : overwrite (overwrite f off a) (off + a.length) b = overwrite f off (a ++ b) := by
  by_cases ha : a = []
  · subst ha; simp [overwrite_nil]
  · by_cases hb : b = []
    · subst hb; simp [overwrite_nil]
    · apply List.ext_getElem?
      intro i
      rw [overwrite_get _ _ _ hb, overwrite_get _ _ _ (by simp [ha] : a ++ b ≠ []), overwrite_get _ _ _ ha, overwrite_length _ _ _ ha]
      simp only [List.length_append, List.getElem?_append]
      grind

/-! ## Ranges -/

/-- The range of link i. -/
def partOf (len n i : Nat) : FileRange := (len / n * i, if i + 1 = n then len - len / n * i else len / n)

theorem filePart_eq (len n i : Nat) : filePart len n i = (((partOf len n i).1 : Int), ((partOf len n i).2 : Int)) := by
  have e : ((len : Int).tdiv (n : Int)) = ((len / n : Nat) : Int) := by
    exact Int.ofNat_tdiv len n |>.symm
  simp only [filePart, e, partOf]
  have hq : len / n * n ≤ len := Nat.div_mul_le_self len n
  generalize len / n = q at *
  have e2 : (q : Int) * (i : Int) = ((q * i : Nat) : Int) := by push_cast; rfl
  rw [e2]
  congr 1
  by_cases h : i + 1 = n
  · rw [if_pos h, if_pos (by omega)]
    have : q * i ≤ len := Nat.le_trans (Nat.mul_le_mul_left _ (by omega : i ≤ n)) hq
    omega
  · rw [if_neg h, if_neg (by omega)]

theorem fileRequests_eq (len n : Nat) : fileRequests len n = ((List.range n).map (partOf len n)).filter (fun r => decide (0 < r.2)) := by
  simp only [fileRequests]
  generalize List.range n = l
  induction l with
  | nil => rfl
  | cons a l ih =>
    simp only [List.map_cons, List.filterMap_cons, List.filter_cons]
    rw [filePart_eq, ih]
    by_cases h : 0 < (partOf len n a).2
    · have h2 : ((partOf len n a).2 : Int) > 0 := by omega
      simp only [h2, if_true, h, decide_true, Int.toNat_natCast]
    · have h2 : ¬ ((partOf len n a).2 : Int) > 0 := by omega
      simp only [h2, if_false, h, decide_false, Bool.false_eq_true]

theorem part_disjoint (len n i j : Nat) (hij : i < j) (hj : j < n) (p : Nat) : ¬ ((partOf len n i).has p ∧ (partOf len n j).has p) := by
  intro ⟨h1, h2⟩
  simp only [FileRange.has, partOf] at h1 h2
  rw [if_neg (by omega)] at h1
  have : len / n * (i + 1) ≤ len / n * j := Nat.mul_le_mul_left _ (by omega)
  rw [Nat.mul_add, Nat.mul_one] at this
  omega

theorem part_inside (len n i : Nat) (hi : i < n) : (partOf len n i).1 + (partOf len n i).2 ≤ len := by
  have h1 : len / n * n ≤ len := Nat.div_mul_le_self len n
  have h2 : len / n * (i + 1) ≤ len / n * n := Nat.mul_le_mul_left _ (by omega)
  rw [Nat.mul_add, Nat.mul_one] at h2
  simp only [partOf]
  generalize len / n = q at *
  split <;> omega

theorem part_cover (len n p : Nat) (hn : 0 < n) (hp : p < len) : ∃ i, i < n ∧ (partOf len n i).has p := by
  by_cases h : p < len / n * (n - 1)
  · have hq : 0 < len / n := by
      rcases Nat.eq_zero_or_pos (len / n) with h0 | h0
      · rw [h0] at h; omega
      · exact h0
    refine ⟨p / (len / n), ?_, ?_⟩
    · have : p / (len / n) < n - 1 := by rw [Nat.div_lt_iff_lt_mul hq]; rw [Nat.mul_comm]; exact h
      omega
    · have hlt : p / (len / n) < n - 1 := by rw [Nat.div_lt_iff_lt_mul hq]; rw [Nat.mul_comm]; exact h
      simp only [FileRange.has, partOf]
      rw [if_neg (by omega)]
      exact ⟨Nat.mul_div_le p _, by have := Nat.lt_mul_div_succ p hq; rw [Nat.mul_add, Nat.mul_one] at this; exact this⟩
  · refine ⟨n - 1, by omega, ?_⟩
    simp only [FileRange.has, partOf]
    rw [if_pos (by omega)]
    omega

theorem fileRequests_partition (len n : Nat) (hn : 0 < n) : Partition len (fileRequests len n) := by
  rw [fileRequests_eq]
  constructor
  · apply List.Pairwise.filter
    rw [List.pairwise_map]
    have := @List.pairwise_lt_range n
    refine List.Pairwise.imp_of_mem ?_ this
    intro a b ha hb hab p
    exact part_disjoint len n a b hab (List.mem_range.mp hb) p
  · intro p
    constructor
    · intro hp
      obtain ⟨i, hi, h⟩ := part_cover len n p hn hp
      refine ⟨partOf len n i, ?_, h⟩
      simp only [List.mem_filter, List.mem_map, List.mem_range]
      refine ⟨⟨i, hi, rfl⟩, ?_⟩
      simp only [FileRange.has] at h
      simp only [decide_eq_true_eq]; omega
    · rintro ⟨r, hr, h⟩
      simp only [List.mem_filter, List.mem_map, List.mem_range] at hr
      obtain ⟨⟨i, hi, rfl⟩, _⟩ := hr
      have := part_inside len n i hi
      simp only [FileRange.has] at h
      omega

theorem fileRequests_inside (len n : Nat) (r : FileRange) (h : r ∈ fileRequests len n) : r.1 + r.2 ≤ len ∧ 0 < r.2 := by
  rw [fileRequests_eq] at h
  simp only [List.mem_filter, List.mem_map, List.mem_range, decide_eq_true_eq] at h
  obtain ⟨⟨i, hi, rfl⟩, h2⟩ := h
  exact ⟨part_inside len n i hi, h2⟩

/-! ## Reading -/

/-- A file_buffer that has read fine so far; its next chunk starts at `start`, and it ends at `stop`. -/
structure BufOk (f : Bytes) (start stop : Nat) (b : FileBuf) : Prop where
  good : b.good = true
  data : b.data = slice f start b.data.length
  pos : b.pos = start + b.data.length
  total : b.total = (stop : Int) - b.pos
  le : b.pos ≤ stop
  inside : stop ≤ f.length
  small : b.data.length ≤ maxTransfer
  last : b.data = [] → b.pos = stop

theorem BufOk.read {f : Bytes} {start stop : Nat} {b : FileBuf} (h : BufOk f start stop b) : BufOk f (start + b.data.length) stop (b.read f) := by
  have ht := h.total
  have hp := h.pos
  have hle := h.le
  have hin := h.inside
  simp only [FileBuf.read]
  split
  · constructor
    · exact h.good
    · simp only [List.length_nil]; rw [slice_zero]
    · simp only [List.length_nil]; omega
    · exact ht
    · exact hle
    · exact hin
    · simp only [List.length_nil]; omega
    · intro _; simp only []; omega
  · rename_i hpos
    have key : ∀ n : Nat, n ≤ stop - b.pos → 0 < n → n ≤ maxTransfer →
        BufOk f (start + b.data.length) stop (if (slice f b.pos n).length ≠ n then { b with total := b.total - n, pos := b.pos + (slice f b.pos n).length, data := [], good := false } else { b with total := b.total - n, pos := b.pos + n, data := slice f b.pos n }) := by
      intro n h1 h2 h3
      have hl : (slice f b.pos n).length = n := by rw [slice_length]; omega
      rw [if_neg (by simp [hl])]
      constructor
      · exact h.good
      · simp only [hl]; rw [← hp]
      · simp only [hl]; omega
      · simp only []; omega
      · simp only []; omega
      · exact hin
      · simp only [hl]; exact h3
      · intro hd; simp only [] at hd; rw [hd] at hl; simp at hl; omega
    split
    · rename_i hbig
      exact key maxTransfer (by simp only [maxTransfer] at *; omega) (by simp [maxTransfer]) (Nat.le_refl _)
    · rename_i hbig
      exact key b.total.toNat (by omega) (by omega) (by omega)

theorem BufOk.new (f : Bytes) (off len : Nat) (h : off + len ≤ f.length) : BufOk f off (off + len) (FileBuf.new f off len) := by
  -- before the first read: like a buffer whose chunk is empty, but which has not come to its end
  have ht : ((len : Int)) = ((off + len : Nat) : Int) - off := by omega
  simp only [FileBuf.new, FileBuf.read]
  split
  · have : len = 0 := by omega
    subst this
    constructor <;> simp <;> (try rw [slice_zero]) <;> (try omega)
  · rename_i hpos
    have key : ∀ n : Nat, n ≤ len → 0 < n → n ≤ maxTransfer →
        BufOk f off (off + len) (if (slice f off n).length ≠ n then (⟨len - n, off + (slice f off n).length, [], false⟩ : FileBuf) else ⟨len - n, off + n, slice f off n, true⟩) := by
      intro n h1 h2 h3
      have hl : (slice f off n).length = n := by rw [slice_length]; omega
      rw [if_neg (by simp [hl])]
      constructor
      · rfl
      · simp only [hl]
      · simp only [hl]
      · simp only []; omega
      · simp only []; omega
      · exact h
      · simp only [hl]; exact h3
      · intro hd; simp only [] at hd; rw [hd] at hl; simp at hl; omega
    split
    · rename_i hbig
      exact key maxTransfer (by simp only [maxTransfer] at *; omega) (by simp [maxTransfer]) (Nat.le_refl _)
    · rename_i hbig
      exact key len (by omega) (by omega) (by omega)

theorem chunks_ok (f : Bytes) (fuel : Nat) : ∀ (start stop : Nat) (b : FileBuf), BufOk f start stop b → stop - start < fuel →
    (FileBuf.chunks f fuel b).2 = true ∧ (FileBuf.chunks f fuel b).1.flatten = slice f start (stop - start) ∧ ∀ c ∈ (FileBuf.chunks f fuel b).1, c ≠ [] ∧ c.length ≤ maxTransfer := by
  induction fuel with
  | zero => intro start stop b _ h; omega
  | succ fuel ih =>
    intro start stop b h hf
    simp only [FileBuf.chunks, h.good]
    by_cases hd : b.data = []
    · simp only [hd, if_true]
      have h1 := h.last hd
      have h2 := h.pos
      rw [hd] at h2
      simp only [List.length_nil, Nat.add_zero] at h2
      have : stop - start = 0 := by omega
      simp [this, slice_zero]
    · simp only [hd, if_false]
      have hlen : 0 < b.data.length := by cases hb : b.data with | nil => exact absurd hb hd | cons a l => simp
      have hpos := h.pos
      have hle := h.le
      have hin := h.inside
      obtain ⟨i1, i2, i3⟩ := ih (start + b.data.length) stop (b.read f) h.read (by omega)
      refine ⟨by simpa using i1, ?_, ?_⟩
      · have : (b.data :: (FileBuf.chunks f fuel (b.read f)).1).flatten = b.data ++ (FileBuf.chunks f fuel (b.read f)).1.flatten := by simp
        simp only [Bool.true_eq_false, if_false]
        rw [this, i2]
        have e : b.data ++ slice f (start + b.data.length) (stop - (start + b.data.length)) = slice f start b.data.length ++ slice f (start + b.data.length) (stop - (start + b.data.length)) := congrArg (· ++ _) h.data
        rw [e, slice_append _ _ _ _ (by omega)]
        congr 1; omega
      · simp only [Bool.true_eq_false, if_false, List.mem_cons]
        rintro c (rfl | hc)
        · exact ⟨hd, h.small⟩
        · exact i3 c hc

end StAsio
