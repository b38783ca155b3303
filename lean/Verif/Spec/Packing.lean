import Verif.Model.Packer
/-!
Specification of packing: what a list of pieces is, as a byte string, and what a correct frame is.
-/
set_option autoImplicit false
namespace StAsio

/-- The exact (unbounded) number of bytes in the non-null pieces. -/
def totalLen (ps : List Piece) : Nat :=
  (ps.map (fun p => if p.ptr.isSome then p.len.toNat else 0)).sum

/-- Each non-null pointer points to at least as many bytes as its length says (the caller's obligation). -/
def Readable (ps : List Piece) : Prop :=
  ∀ p ∈ ps, ∀ mem, p.ptr = some mem → p.len.toNat ≤ mem.length

/-- The bytes of the non-null pieces, in order. -/
def content (ps : List Piece) : Bytes :=
  (ps.map (fun p => match p.ptr with | none => [] | some mem => mem.take p.len.toNat)).flatten

/-- A non-null piece made of exactly the given bytes. -/
def Piece.of (b : Bytes) : Piece := { ptr := some b, len := UInt64.ofNat b.length }

/-- A byte string is an honest frame: it starts with a head whose value is the length of the whole. -/
def Honest (c : Cfg) (f : Bytes) : Prop := c.headLen ≤ f.length ∧ beVal (f.take c.headLen) = f.length

end StAsio
