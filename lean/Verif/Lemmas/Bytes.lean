import Verif.Model.Reader
/-! Lemmas about byte strings, big-endian numbers and the memory-block primitives. -/
set_option autoImplicit false
namespace StAsio

@[simp] theorem be_length (k n : Nat) : (be k n).length = k := by
  induction k generalizing n with
  | zero => rfl
  | succ k ih => simp [be, ih]

theorem beVal_append_singleton (bs : Bytes) (b : Byte) : beVal (bs ++ [b]) = beVal bs * 256 + b.toNat := by
  simp [beVal]

theorem beVal_be (k n : Nat) : beVal (be k n) = n % 256 ^ k := by
  induction k generalizing n with
  | zero => simp [be, beVal, Nat.mod_one]
  | succ k ih =>
    rw [be, beVal_append_singleton, ih]
    have h : (UInt8.ofNat (n % 256)).toNat = n % 256 := by
      rw [UInt8.toNat_ofNat']; omega
    rw [h, Nat.pow_succ, Nat.mul_comm (256 ^ k) 256, Nat.mod_mul]
    omega

theorem beVal_be_of_lt {k n : Nat} (h : n < 256 ^ k) : beVal (be k n) = n := by
  rw [beVal_be, Nat.mod_eq_of_lt h]

theorem beVal_lt (bs : Bytes) : beVal bs < 256 ^ bs.length := by
  suffices h : ∀ (l : Bytes) (acc : Nat),
      l.foldl (fun acc b => acc * 256 + b.toNat) acc < (acc + 1) * 256 ^ l.length by
    have := h bs 0; simpa [beVal] using this
  intro l
  induction l with
  | nil => intro acc; simp
  | cons b l ih =>
    intro acc
    have := ih (acc * 256 + b.toNat)
    have hb := b.toNat_lt
    simp only [List.foldl_cons, List.length_cons]
    refine Nat.lt_of_lt_of_le this ?_
    rw [Nat.pow_succ, Nat.mul_comm (256 ^ l.length) 256, ← Nat.mul_assoc]
    exact Nat.mul_le_mul_right _ (by omega)

theorem readAt_some {m : Bytes} {off len : Nat} (h : off + len ≤ m.length) :
    readAt m off len = some ((m.drop off).take len) := by simp [readAt, h]

theorem writeAt_some {m : Bytes} {off : Nat} {d : Bytes} (h : off + d.length ≤ m.length) :
    writeAt m off d = some (m.take off ++ d ++ m.drop (off + d.length)) := by simp [writeAt, h]

end StAsio
