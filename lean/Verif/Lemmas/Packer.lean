import Verif.Spec.Packing
import Verif.Lemmas.Frames
set_option autoImplicit false
namespace StAsio

theorem msgSizeLoop_spec (c : Cfg) (hb : c.bufSize < sizeMod) : ∀ (ps : List Piece) (total : Nat), total ≤ c.bufSize →
    msgSizeLoop c total ps = if total + totalLen ps ≤ c.bufSize then some (total + totalLen ps) else none := by
  intro ps
  induction ps with
  | nil => intro total h; simp [msgSizeLoop, totalLen, h]
  | cons p ps ih =>
    intro total h
    cases hp : p.ptr with
    | none =>
      have : totalLen (p :: ps) = totalLen ps := by simp [totalLen, hp]
      simp only [msgSizeLoop, hp, this]
      exact ih total h
    | some mem =>
      have ht : totalLen (p :: ps) = p.len.toNat + totalLen ps := by simp [totalLen, hp]
      simp only [msgSizeLoop, hp, ht]
      have hl : p.len.toNat < sizeMod := p.len.toNat_lt
      by_cases h1 : total + p.len.toNat < sizeMod
      · rw [Nat.mod_eq_of_lt h1]
        by_cases h2 : c.bufSize < total + p.len.toNat
        · rw [if_pos (Or.inr h2), if_neg (by omega)]
        · rw [if_neg (by omega), ih _ (by omega), Nat.add_assoc]
      · have hm : (total + p.len.toNat) % sizeMod = total + p.len.toNat - sizeMod := by
          rw [Nat.mod_eq_sub_mod (by omega), Nat.mod_eq_of_lt (by omega)]
        rw [hm, if_pos (Or.inl (by omega)), if_neg (by omega)]

theorem appendPieces_spec (ps : List Piece) (h : Readable ps) : appendPieces ps = some (content ps) := by
  induction ps with
  | nil => rfl
  | cons p ps ih =>
    have := ih (fun q hq => h q (by simp [hq]))
    cases hp : p.ptr with
    | none => simp [appendPieces, this, hp, content]
    | some mem =>
      have hl := h p (by simp) mem hp
      simp [appendPieces, this, hp, content, readAt_some (m := mem) (off := 0) (len := p.len.toNat) (by omega)]

theorem content_length (ps : List Piece) (h : Readable ps) : (content ps).length = totalLen ps := by
  induction ps with
  | nil => rfl
  | cons p ps ih =>
    have ih := ih (fun q hq => h q (by simp [hq]))
    simp only [content, totalLen, List.map_cons, List.flatten_cons, List.length_append, List.sum_cons] at ih ⊢
    rw [ih]
    cases hp : p.ptr with
    | none => simp
    | some mem =>
      have hl := h p (by simp) mem hp
      simp; omega

theorem Cfg.Valid.lt_sizeMod {c : Cfg} (h : c.Valid) : c.bufSize < sizeMod := by
  have := h.2; unfold sizeMod; omega

theorem sizeInByte_eq (ms : List Bytes) : sizeInByte ms = ms.flatten.length := by
  induction ms with
  | nil => rfl
  | cons m ms ih => simp [sizeInByte, ih]

theorem packHeader_ok (c : Cfg) (ndebug : Bool) (len : Nat) (h1 : c.headLen + len ≤ c.bufSize)
    (h2 : c.headLen + len < 256 ^ c.headLen) : packHeader c ndebug len = some (be c.headLen (c.headLen + len)) := by
  have : 0 < c.headLen := by unfold Cfg.headLen; split <;> omega
  have hl : len < c.bufSize := by omega
  simp [packHeader, Nat.mod_eq_of_lt h2, h1, hl]

end StAsio
