import Verif.Lemmas.Sending
/-!
# C10, C11, C12: packing
-/
set_option autoImplicit false
namespace StAsio

/-- C10. `packer::pack_msg` over an array of pieces succeeds exactly when head (unless native) and all non-null pieces fit
the buffer size and (unless native) the range of the head; the message is then head plus pieces, or empty if there
is nothing to pack; on failure the message is empty. `totalLen` is the exact sum, so no overflow is ever mis-packed. -/
theorem C10_pack_array (c : Cfg) (hv : c.Valid) (native : Bool) (ps : List Piece) (h : Readable ps) :
    packArray c native (some ps) =
      if (if native then 0 else c.headLen) + totalLen ps ≤ c.bufSize ∧
          (native = true ∨ totalLen ps = 0 ∨ c.headLen + totalLen ps < 256 ^ c.headLen) then
        some (true, if totalLen ps = 0 then [] else if native then content ps else wire c.headLen (content ps))
      else some (false, []) := by
  rw [packArray_spec c hv native ps h]
  simp only [wire, content_length ps h]
  cases native <;> simp only [Bool.false_eq_true, if_true, if_false, false_or, true_or, and_true, Nat.zero_add]
  · by_cases h1 : c.bufSize < c.headLen + totalLen ps
    · rw [if_pos h1, if_neg (by omega)]
    · by_cases h2 : totalLen ps = 0
      · simp [h2, hv.1]
      · by_cases h3 : 256 ^ c.headLen ≤ c.headLen + totalLen ps
        · rw [if_neg h1, if_neg h2, if_pos h3, if_neg (by omega)]
        · rw [if_neg h1, if_neg h2, if_neg h3, if_pos (by omega), if_neg h2]
  · by_cases h1 : c.bufSize < totalLen ps
    · rw [if_pos h1, if_neg (by omega)]
    · rw [if_neg h1, if_pos (show totalLen ps ≤ c.bufSize by omega)]; split <;> rfl

/-- C10, refusal: when the lengths do not fit (in particular when their sum overflows `size_t`), no memory is read at
all: the result does not depend on what the pointers point to. A null array is refused as well. -/
theorem C10_refuse_without_reading (c : Cfg) (hv : c.Valid) (native : Bool) (ps : List Piece)
    (h : c.bufSize < (if native then 0 else c.headLen) + totalLen ps) :
    packArray c native (some ps) = some (false, []) ∧ packArray c native none = some (false, []) := by
  have hpre : (if native then 0 else c.headLen) ≤ c.bufSize := by
    have := hv.1; split <;> omega
  constructor
  · simp only [packArray, msgSizeCheck, msgSizeLoop_spec c hv.lt_sizeMod ps _ hpre]
    rw [if_neg (by omega)]
  · simp [packArray, msgSizeCheck]

/-- Non-vacuity of C10: pieces that fit, and lengths whose sum wraps around to 1. -/
example : Readable [Piece.of [1], { ptr := none, len := 7 }, Piece.of [2, 3]] := by
  intro p hp mem hm; simp [Piece.of] at hp; rcases hp with rfl | rfl | rfl <;> simp at hm <;> subst hm <;> decide
example : (2 : Nat) ^ 64 < (Cfg.mk false 4000).headLen + totalLen [{ ptr := some [], len := 18446744073709551615 }, { ptr := some [], len := 2 }] ∧
    packArray (Cfg.mk false 4000) false (some [{ ptr := some [], len := 18446744073709551615 }, { ptr := some [], len := 2 }]) = some (false, []) := by decide +kernel

/-- C11, default packer (and packer2). Each container overload accepts exactly the messages that fit; it then appends to
the output the very bytes that packing the concatenation in one go yields (`wire`), leaving the inputs empty; a
refusal leaves inputs and output as they were. -/
theorem C11_zero_copy (c : Cfg) (hv : c.Valid) (hr : c.bufSize < 256 ^ c.headLen) (nd : Bool) (m m1 m2 : Bytes)
    (ms can : List Bytes) :
    packOne c nd m can = some (if c.headLen + m.length ≤ c.bufSize
      then { ok := true, left := [[]], can := can ++ [be c.headLen (c.headLen + m.length), m] }
      else { ok := false, left := [m], can }) ∧
    packTwo c nd m1 m2 can = some (if c.headLen + (m1 ++ m2).length ≤ c.bufSize
      then { ok := true, left := [[], []], can := can ++ [be c.headLen (c.headLen + (m1 ++ m2).length), m1, m2] }
      else { ok := false, left := [m1, m2], can }) ∧
    packList c nd ms can = some (if c.headLen + ms.flatten.length ≤ c.bufSize
      then { ok := true, left := [], can := can ++ be c.headLen (c.headLen + ms.flatten.length) :: ms }
      else { ok := false, left := ms, can }) := by
  have hv1 := hv.1
  refine ⟨?_, ?_, ?_⟩
  · by_cases h : c.headLen + m.length ≤ c.bufSize
    · have h' : ¬ (maxMsgSize c < m.length) := by unfold maxMsgSize; omega
      simp [packOne, h, h', packHeader_ok c nd m.length h (by omega)]
    · have h' : maxMsgSize c < m.length := by unfold maxMsgSize; omega
      simp [packOne, h, h']
  · simp only [List.length_append]
    by_cases h : c.headLen + (m1.length + m2.length) ≤ c.bufSize
    · have h' : ¬ (maxMsgSize c < m1.length + m2.length) := by unfold maxMsgSize; omega
      simp [packTwo, h, h', packHeader_ok c nd _ h (by omega)]
    · have h' : maxMsgSize c < m1.length + m2.length := by unfold maxMsgSize; omega
      simp [packTwo, h, h']
  · simp only [packList, sizeInByte_eq]
    by_cases h : c.headLen + ms.flatten.length ≤ c.bufSize
    · have h' : ¬ (maxMsgSize c < ms.flatten.length) := by unfold maxMsgSize; omega
      simp only [h', if_false, packHeader_ok c nd _ h (by omega), h, if_true]
      simp
    · have h' : maxMsgSize c < ms.flatten.length := by unfold maxMsgSize; omega
      simp only [h', h, if_true, if_false]
      simp

/-- C11, consequence: the bytes that go on the wire are the same as those of the copying overload, for each way of
splitting one body into pieces. -/
theorem C11_same_bytes (c : Cfg) (hv : c.Valid) (hr : c.bufSize < 256 ^ c.headLen) (nd : Bool) (ms : List Bytes)
    (hne : ms.flatten ≠ []) (hfit : c.headLen + ms.flatten.length ≤ c.bufSize) :
    ∃ p bytes, packList c nd ms [] = some p ∧ p.ok = true ∧ p.can.flatten = bytes ∧
      packArray c false (some (ms.map Piece.of)) = some (true, bytes) := by
  have hcont : ∀ l : List Bytes, l.flatten.length < 2 ^ 64 → content (l.map Piece.of) = l.flatten ∧ Readable (l.map Piece.of) := by
    intro l
    induction l with
    | nil => intro _; exact ⟨rfl, by intro p hp; simp at hp⟩
    | cons a l ih =>
      intro hlt
      simp only [List.flatten_cons, List.length_append] at hlt
      obtain ⟨h1, h2⟩ := ih (by omega)
      have hlen : (Piece.of a).len.toNat = a.length := by
        simp only [Piece.of]
        rw [UInt64.toNat_ofNat', Nat.mod_eq_of_lt (by omega)]
      constructor
      · have : content ((a :: l).map Piece.of) = a.take (Piece.of a).len.toNat ++ content (l.map Piece.of) := by
          simp [content, Piece.of]
        rw [this, hlen, h1]; simp
      · intro p hp mem hm
        simp only [List.map_cons, List.mem_cons] at hp
        rcases hp with rfl | hp
        · rw [hlen]; simp [Piece.of] at hm; subst hm; exact Nat.le_refl _
        · exact h2 p hp mem hm
  have h100 := hv.2
  obtain ⟨hc, hrd⟩ := hcont ms (by omega)
  have h3 := (C11_zero_copy c hv hr nd [] [] [] ms []).2.2
  rw [if_pos hfit] at h3
  refine ⟨_, _, h3, rfl, rfl, ?_⟩
  have hlen := content_length _ hrd
  rw [hc] at hlen
  have hpos : 0 < ms.flatten.length := List.length_pos_iff.mpr hne
  rw [C10_pack_array c hv false _ hrd, if_pos (by simp only [Bool.false_eq_true, if_false]; omega)]
  rw [← hlen, if_neg (by omega)]
  simp only [Bool.false_eq_true, if_false, wire, hc, List.nil_append, List.flatten_cons]

/-- Non-vacuity of C11. -/
def exCfgP : Cfg := { huge := true, bufSize := 64 }
example : exCfgP.Valid ∧ exCfgP.bufSize < 256 ^ exCfgP.headLen ∧
    [[1], [], [(2 : Byte)]].flatten ≠ [] ∧ exCfgP.headLen + [[1], [], [(2 : Byte)]].flatten.length ≤ exCfgP.bufSize := by decide
example : ({ pre := [1], suf := [2, 3] } : PsCfg).Valid exCfgP := by unfold PsCfg.Valid; decide

/-- C11, prefix/suffix packer: each container overload accepts exactly what fits; it then appends prefix, pieces and
suffix (so the same bytes as the copying overload yields for a non-empty body); a refusal changes nothing. -/
theorem C11_prefix_suffix (c : Cfg) (p : PsCfg) (m m1 m2 : Bytes) (ms can : List Bytes) :
    let fits (b : Bytes) := p.pre.length + b.length + p.suf.length ≤ c.bufSize
    let good (r : Packed) (b : Bytes) := r.ok = true ∧ r.left.flatten = [] ∧ r.can.flatten = can.flatten ++ (p.pre ++ b ++ p.suf)
    let refused (r : Packed) (inp : List Bytes) := r = { ok := false, left := inp, can }
    (fits m → good (psPackOne c p m can) m) ∧ (¬ fits m → refused (psPackOne c p m can) [m]) ∧
    (fits (m1 ++ m2) → good (psPackTwo c p m1 m2 can) (m1 ++ m2)) ∧
    (¬ fits (m1 ++ m2) → refused (psPackTwo c p m1 m2 can) [m1, m2]) ∧
    (fits ms.flatten → good (psPackList c p ms can) ms.flatten) ∧
    (¬ fits ms.flatten → refused (psPackList c p ms can) ms) := by
  have he : ∀ (s : Bytes) (l : List Bytes), (emplaceNonEmpty s l).flatten = l.flatten ++ s := by
    intro s l; unfold emplaceNonEmpty; split <;> simp_all
  simp only [List.length_append]
  refine ⟨?_, ?_, ?_, ?_, ?_, ?_⟩ <;> intro h
  · rw [psPackOne, if_neg (by omega)]; simp [he]
  · rw [psPackOne, if_pos (by omega)]
  · rw [psPackTwo, if_neg (by omega)]; simp [he]
  · rw [psPackTwo, if_pos (by omega)]
  · rw [psPackList, if_neg (by rw [sizeInByte_eq]; omega)]; simp [he]
  · rw [psPackList, if_pos (by rw [sizeInByte_eq]; omega)]

/-- C11, prefix/suffix packer, copying overload. -/
theorem C11_prefix_suffix_array (c : Cfg) (hv : c.Valid) (p : PsCfg) (hp : p.Valid c) (native : Bool) (ps : List Piece) (h : Readable ps) :
    psPackArray c p native (some ps) =
      if (if native then 0 else p.pre.length + p.suf.length) + totalLen ps ≤ c.bufSize then
        some (true, if totalLen ps = 0 then [] else if native then content ps else p.pre ++ content ps ++ p.suf)
      else some (false, []) := by
  have hpre : (if native then 0 else p.pre.length + p.suf.length) ≤ c.bufSize := by
    have := hp.2; split <;> omega
  simp only [psPackArray, msgSizeCheck, msgSizeLoop_spec c hv.lt_sizeMod ps _ hpre]
  generalize (if native then 0 else p.pre.length + p.suf.length) = pre at *
  by_cases h1 : pre + totalLen ps ≤ c.bufSize
  · rw [if_pos h1, if_pos h1]
    by_cases h2 : totalLen ps = 0
    · simp [h2]
    · simp [appendPieces_spec ps h, h2, Nat.pos_of_ne_zero h2]
  · rw [if_neg h1, if_neg h1]

/-- C11 is false of fixed_length_packer's list overload when the output container is not empty: `in.swap(out)` drops
what was already packed (and puts it into the input) instead of appending. -/
theorem C11_fixed_length_list_drops_output :
    ∃ (inp out : List Bytes), (flPackList inp out).ok = true ∧ (flPackList inp out).can ≠ out ++ inp ∧ (flPackList inp out).left ≠ [] :=
  ⟨[[1]], [[2]], rfl, by decide, by decide⟩

/-- C12 (partial: holds in builds with asserts, or whenever ST_ASIO_MSG_BUFFER_SIZE does not exceed the range of the head;
missing: 16 bit heads with a buffer above 65535 in NDEBUG builds, where it is false, see below). Everything any
overload emits is a frame whose head tells the true length. -/
theorem C12_head_honest_partial (c : Cfg) (hv : c.Valid) (nd : Bool) (hr : c.bufSize < 256 ^ c.headLen ∨ nd = false) (item : Item)
    (bytes : Bytes) (h : Sends c nd item bytes) : Honest c bytes := by
  obtain ⟨h1, h2, h3⟩ := h.wire hv hr
  subst h1
  unfold Honest
  rw [wire_length]
  refine ⟨by omega, ?_⟩
  rw [wire, List.take_append_of_le_length (by simp [be_length]), List.take_of_length_le (by simp [be_length])]
  exact beVal_be_of_lt h3

/-- C12: the copying overload is honest in every configuration and build. -/
theorem C12_array_honest (c : Cfg) (hv : c.Valid) (ps : List Piece) (h : Readable ps) (bytes : Bytes) (hne : bytes ≠ [])
    (hp : packArray c false (some ps) = some (true, bytes)) : Honest c bytes := by
  have hne' : content ps ≠ [] := by
    intro h0
    have hl := content_length ps h
    rw [h0] at hl
    simp at hl
    rw [C10_pack_array c hv false ps h, ← hl] at hp
    simp [hv.1] at hp
    exact hne hp
  exact C12_head_honest_partial c hv false (Or.inr rfl) _ _ (.array ps bytes h hne' hp)

/-- C12 is false in general: 16 bit head, a legal buffer size of 70000, NDEBUG. Every body of 65534 bytes or more that is
accepted by a container overload is sent with a wrong head... -/
theorem C12_head_can_lie (m : Bytes) (h1 : 65534 ≤ m.length) (h2 : m.length ≤ 69998) :
    (Cfg.mk false 70000).Valid ∧
    ∃ p, packOne { huge := false, bufSize := 70000 } true m [] = some p ∧ p.ok = true ∧
      ¬ Honest { huge := false, bufSize := 70000 } p.can.flatten := by
  refine ⟨by decide, { ok := true, left := [[]], can := [] ++ [be 2 ((2 + m.length) % 256 ^ 2)] ++ [m] }, ?_, ?_⟩
  · have h' : ¬ (maxMsgSize { huge := false, bufSize := 70000 } < m.length) := by
      simp [maxMsgSize, Cfg.headLen]; omega
    simp only [packOne, h', if_false, packHeader]
    rfl
  · refine ⟨rfl, ?_⟩
    simp only [Honest, Cfg.headLen, Bool.false_eq_true, if_false]
    intro ⟨_, h⟩
    rw [List.flatten_append, List.take_append_of_le_length (by simp)] at h
    simp only [List.nil_append, List.flatten_cons, List.flatten_nil, List.append_nil] at h
    rw [List.take_of_length_le (by simp), beVal_be] at h
    simp at h
    omega

/-- ... and a build with asserts aborts instead. -/
theorem C12_head_assert (m : Bytes) (h1 : 65534 ≤ m.length) (h2 : m.length ≤ 69998) :
    packOne { huge := false, bufSize := 70000 } false m [] = none := by
  have h' : ¬ (maxMsgSize { huge := false, bufSize := 70000 } < m.length) := by
    simp [maxMsgSize, Cfg.headLen]; omega
  have h3 : m.length < 70000 := by omega
  have h4 : 2 + m.length ≤ 70000 := by omega
  have h5 : ¬ ((2 + m.length) % 65536 = 2 + m.length) := by omega
  simp [packOne, h', packHeader, Cfg.headLen, h3, h4, h5, failure]

example : ∃ m : Bytes, 65534 ≤ m.length ∧ m.length ≤ 69998 := ⟨List.replicate 65534 0, by rw [List.length_replicate]; omega⟩

end StAsio
