import Verif.Spec.Bytes

/-!
# Vocabulary for the file transfer

Nothing here refers to the model.
-/

set_option autoImplicit false

namespace StAsio

/-- A range of a file: first byte and number of bytes. -/
abbrev FileRange := Nat × Nat

/-- The range contains the position. -/
def FileRange.has (r : FileRange) (p : Nat) : Prop := r.1 ≤ p ∧ p < r.1 + r.2

/-- The ranges partition a file of `len` bytes: no two of them share a byte, and together they contain exactly the bytes of the file. -/
def Partition (len : Nat) (rs : List FileRange) : Prop :=
  rs.Pairwise (fun a b => ∀ p, ¬ (FileRange.has a p ∧ FileRange.has b p)) ∧ ∀ p, p < len ↔ ∃ r ∈ rs, FileRange.has r p

/-- The bytes of a file in a range. -/
def slice (f : Bytes) (off len : Nat) : Bytes := (f.drop off).take len

/-- Writing bs at off; a gap is filled with zeros. -/
def overwrite (f : Bytes) (off : Nat) (bs : Bytes) : Bytes := if bs = [] then f else (f ++ List.replicate (off - f.length) 0).take off ++ bs ++ f.drop (off + bs.length)

/-- Little-endian two's complement of 8 bytes (memcpy from and to a fl_type). -/
def leInt64 (bs : Bytes) : Int := let n := beVal bs.reverse; if n < 2 ^ 63 then n else (n : Int) - 2 ^ 64

/-! ## What can be seen of the file server -/

inductive FSrvEv
  | opened (flen : Nat)             -- opens a file of flen bytes for reading
  | openedW                         -- opens a file for writing
  | closed                          -- closes the file
  | serve (off len : Int)           -- begins to send len bytes from off
  | read (pos : Int) (n : Nat)      -- reads n bytes at pos to a buffer of 65536 bytes
  | accept (off len : Int)          -- begins to receive len bytes for position off
  | store (n : Nat)                 -- stores n bytes from the network in a buffer of 65536 bytes
  | write (pos : Int) (n : Nat)     -- writes n bytes at pos
  | reply (order : UInt8)           -- answers a request
  | ub                              -- undefined behaviour: a closed file is read, an integer overflows
  deriving Repr, DecidableEq

/-- What an observer knows: the file that is open (for reading: its length), and what is left of the range being served or accepted. -/
structure FMon where
  rd : Option Nat
  wr : Bool
  rest : Option (Int × Int)
  deriving Repr, DecidableEq

def FMon.init : FMon := ⟨none, false, none⟩

/-- What the file server may do: serve ranges inside the file that is open for reading, read only what is left of that range, write only what is left of the range it has accepted, and use only its buffer of 65536 bytes. -/
def FMon.step (m : FMon) : FSrvEv → Option FMon
  | .opened n => if m.rd = none ∧ m.wr = false then some ⟨some n, false, none⟩ else none
  | .openedW => if m.rd = none ∧ m.wr = false then some ⟨none, true, none⟩ else none
  | .closed => if m.rd ≠ none ∨ m.wr = true then some FMon.init else none
  | .serve off len => match m.rd with
    | some flen => if m.rest = none ∧ 0 ≤ off ∧ 0 < len ∧ off + len ≤ flen then some { m with rest := some (off, len) } else none
    | none => none
  | .read pos n => match m.rd, m.rest with
    | some flen, some (p, l) => if pos = p ∧ 0 < n ∧ n ≤ l ∧ n ≤ 65536 ∧ 0 ≤ pos ∧ pos + n ≤ flen then some { m with rest := some (p + n, l - n) } else none
    | _, _ => none
  | .accept off len => if m.wr = true ∧ m.rest = none ∧ 0 ≤ off ∧ 0 ≤ len then some { m with rest := some (off, len) } else none
  | .store n => match m.rest with
    | some (_, l) => if m.wr = true ∧ n ≤ l ∧ n ≤ 65536 then some m else none
    | none => none
  | .write pos n => match m.rest with
    | some (p, l) => if m.wr = true ∧ pos = p ∧ n ≤ l then some { m with rest := some (p + n, l - n) } else none
    | none => none
  | .reply _ => some m
  | .ub => none

/-- The observer follows a history. -/
def FMon.run (m : FMon) : List FSrvEv → Option FMon
  | [] => some m
  | e :: es => (m.step e).bind (fun m1 => FMon.run m1 es)

end StAsio
