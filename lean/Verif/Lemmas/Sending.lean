import Verif.Spec.Sending
import Verif.Lemmas.Packer
set_option autoImplicit false
namespace StAsio

theorem packArray_spec (c : Cfg) (hv : c.Valid) (native : Bool) (ps : List Piece) (h : Readable ps) :
    packArray c native (some ps) =
      let pre := if native then 0 else c.headLen
      if c.bufSize < pre + totalLen ps then some (false, [])
      else if totalLen ps = 0 then some (true, [])
      else if native then some (true, content ps)
      else if 256 ^ c.headLen ≤ c.headLen + totalLen ps then some (false, [])
      else some (true, be c.headLen (c.headLen + totalLen ps) ++ content ps) := by
  have hb := hv.lt_sizeMod
  have hpre : (if native then 0 else c.headLen) ≤ c.bufSize := by
    have := hv.1; split <;> omega
  simp only [packArray, msgSizeCheck, msgSizeLoop_spec c hb ps _ hpre]
  generalize hp : (if native then 0 else c.headLen) = pre at *
  by_cases h1 : c.bufSize < pre + totalLen ps
  · rw [if_neg (by omega), if_pos h1]
  · rw [if_pos (by omega), if_neg h1]
    by_cases h2 : totalLen ps = 0
    · simp [h2]
    · simp only [show pre < pre + totalLen ps by omega, if_true, h2, if_false]
      cases native with
      | true => simp [appendPieces_spec ps h]
      | false =>
        simp only [Bool.false_eq_true, if_false] at hp
        subst hp
        simp only [Bool.not_false, if_true, Bool.false_eq_true, if_false]
        by_cases h3 : 256 ^ c.headLen ≤ c.headLen + totalLen ps
        · have : (c.headLen + totalLen ps) % 256 ^ c.headLen < 256 ^ c.headLen := Nat.mod_lt _ (Nat.pow_pos (by omega))
          rw [if_pos (by omega), if_pos h3]
        · rw [Nat.mod_eq_of_lt (by omega)]
          simp [h3, appendPieces_spec ps h]

/-- In a debug build, or when the head can express every length up to the buffer size, a produced head is right. -/
theorem packHeader_head (c : Cfg) (nd : Bool) (hr : c.bufSize < 256 ^ c.headLen ∨ nd = false) (len : Nat) (head : Bytes)
    (hl : c.headLen + len ≤ c.bufSize) (h : packHeader c nd len = some head) :
    c.headLen + len < 256 ^ c.headLen ∧ head = be c.headLen (c.headLen + len) := by
  have hlt : c.headLen + len < 256 ^ c.headLen := by
    rcases hr with hr | hr
    · omega
    · subst hr
      rcases Nat.lt_or_ge (c.headLen + len) (256 ^ c.headLen) with h' | h'
      · exact h'
      · exfalso
        have hm : (c.headLen + len) % 256 ^ c.headLen < 256 ^ c.headLen := Nat.mod_lt _ (Nat.pow_pos (by omega))
        have hne : ¬ ((c.headLen + len) % 256 ^ c.headLen = c.headLen + len) := by omega
        have hl0 : 0 < c.headLen := by unfold Cfg.headLen; split <;> omega
        have hlen : len < c.bufSize := by omega
        simp [packHeader, hl, hlen, hne, failure] at h
  refine ⟨hlt, ?_⟩
  rw [packHeader_ok c nd len hl hlt] at h
  exact (Option.some.inj h).symm

theorem Sends.wire {c : Cfg} (hv : c.Valid) {nd : Bool} (hr : c.bufSize < 256 ^ c.headLen ∨ nd = false) {item : Item}
    {bytes : Bytes} (h : Sends c nd item bytes) :
    bytes = StAsio.wire c.headLen item ∧ c.headLen + item.length ≤ c.bufSize ∧ c.headLen + item.length < 256 ^ c.headLen := by
  have hv1 := hv.1
  cases h with
  | array ps bytes h1 h2 h3 =>
    have hlen := content_length ps h1
    rw [packArray_spec c hv false ps h1] at h3
    have h2' : totalLen ps ≠ 0 := by
      rw [← hlen]; intro h; exact h2 (List.length_eq_zero_iff.mp h)
    simp only [Bool.false_eq_true, if_false, h2'] at h3
    split at h3
    · simp at h3
    · split at h3
      · simp at h3
      · simp only [Option.some.injEq, Prod.mk.injEq, true_and] at h3
        subst h3
        exact ⟨by simp [StAsio.wire, hlen], by omega, by omega⟩
  | one m p h1 h2 =>
    simp only [packOne] at h1
    split at h1
    · simp at h1; subst h1; simp at h2
    · next hm =>
      simp only [maxMsgSize] at hm
      cases hh : packHeader c nd item.length with
      | none => simp [hh] at h1
      | some head =>
        obtain ⟨ha, hb⟩ := packHeader_head c nd hr _ head (by omega) hh
        simp [hh] at h1; subst h1
        exact ⟨by simp [StAsio.wire, hb], by omega, ha⟩
  | two m1 m2 p h1 h2 =>
    simp only [packTwo] at h1
    split at h1
    · simp at h1; subst h1; simp at h2
    · next hm =>
      simp only [maxMsgSize] at hm
      cases hh : packHeader c nd (m1.length + m2.length) with
      | none => simp [hh] at h1
      | some head =>
        obtain ⟨ha, hb⟩ := packHeader_head c nd hr _ head (by omega) hh
        simp [hh] at h1; subst h1
        simp only [List.length_append]
        exact ⟨by simp [StAsio.wire, hb], by omega, ha⟩
  | list ms p h1 h2 =>
    simp only [packList, sizeInByte_eq] at h1
    split at h1
    · simp at h1; subst h1; simp at h2
    · next hm =>
      simp only [maxMsgSize] at hm
      generalize hL : ms.flatten.length = L at *
      cases hh : packHeader c nd L with
      | none => simp [hh] at h1
      | some head =>
        obtain ⟨ha, hb⟩ := packHeader_head c nd hr _ head (by omega) hh
        simp [hh] at h1; subst h1
        exact ⟨by simp only [StAsio.wire, hb, List.flatten_cons, hL], by omega, ha⟩
  | heartbeat _ bytes h0 h1 =>
    subst h0
    obtain ⟨ha, hb⟩ := packHeader_head c nd hr 0 bytes (by omega) h1
    exact ⟨by simp [StAsio.wire, hb], by simpa using hv1, by simpa using ha⟩

/-- The stream of a list of sends. -/
theorem sends_stream {c : Cfg} (hv : c.Valid) {nd : Bool} (hr : c.bufSize < 256 ^ c.headLen ∨ nd = false)
    (sent : List (Item × Bytes)) (h : ∀ x ∈ sent, Sends c nd x.1 x.2) :
    (sent.map (·.2)).flatten = ((sent.map (·.1)).map (StAsio.wire c.headLen)).flatten ∧
      ∀ b ∈ sent.map (·.1), c.headLen + b.length ≤ c.bufSize ∧ c.headLen + b.length < 256 ^ c.headLen := by
  constructor
  · congr 1
    rw [List.map_map]
    apply List.map_congr_left
    intro x hx
    exact ((h x hx).wire hv hr).1
  · intro b hb
    obtain ⟨x, hx, rfl⟩ := List.mem_map.mp hb
    exact ((h x hx).wire hv hr).2

end StAsio
