/-!
Specification vocabulary about byte strings. Nothing here refers to the model.
-/
set_option autoImplicit false
namespace StAsio

abbrev Byte := UInt8
abbrev Bytes := List UInt8

/-- Big-endian ("network order") encoding of `n` in `k` bytes; only `n % 256^k` is representable. -/
def be : Nat → Nat → Bytes
  | 0, _ => []
  | k + 1, n => be k (n / 256) ++ [UInt8.ofNat (n % 256)]

/-- Value of a big-endian byte string. -/
def beVal (bs : Bytes) : Nat := bs.foldl (fun acc b => acc * 256 + b.toNat) 0

end StAsio
