import Verif.Model.BasicBuffer
/-!
The ideal byte string: what every operation of basic_buffer should do, in terms of contents and exceptions only.
-/
set_option autoImplicit false
namespace StAsio

def dropNul (s : Bytes) : Bytes := if s.getLast? = some 0 then s.dropLast else s

/-- Append `t` to `s` unless the result is longer than UINT_MAX. -/
def IdealAppend (s t s' : Bytes) (e : Option BbExc) : Prop :=
  if s.length + t.length ≤ 4294967295 then s' = s ++ t ∧ e = none else s' = s ∧ e = some .lengthError

/-- `IdealOp op x y x' y' e`: operation `op` on strings `x`, `y` results in `x'`, `y'` and exception `e`. -/
def IdealOp (op : BbOp) (x y x' y' : Bytes) (e : Option BbExc) : Prop :=
  match op with
  | .appendFill n c => y' = y ∧ IdealAppend x (List.replicate n c) x' e
  | .append s => y' = y ∧ IdealAppend x (s.getD []) x' e
  | .append2 s => y' = y ∧ IdealAppend (dropNul x) (s.getD []) x' e
  | .append2Str s => y' = y ∧ IdealAppend x (s ++ [0]) x' e
  | .erase pos len => y' = y ∧ if x.length < pos then x' = x ∧ e = some .outOfRange else x' = x.take pos ++ x.drop (pos + len) ∧ e = none
  | .resize n => y' = y ∧
      if n ≤ 4294967295 then x'.length = n ∧ x'.take (min n x.length) = x.take n ∧ e = none else x' = x ∧ e = some .lengthError
  | .assign s => y' = y ∧ IdealAppend [] (s.getD []) x' e
  | .shrink => y' = y ∧ x' = x ∧ e = none
  | .reserve n => y' = y ∧ x' = x ∧ e = if n ≤ 4294967295 then none else some .lengthError
  | .clear => y' = y ∧ x' = [] ∧ e = none
  | .clean => y' = y ∧ x' = [] ∧ e = none
  | .swap => x' = y ∧ y' = x ∧ e = none
  | .copyFrom => y' = y ∧ x' = y ∧ e = none
  | .appendFrom => y' = y ∧ IdealAppend x y x' e

/-- A whole run of operations on ideal strings. -/
inductive IdealRun : List BbOp → Bytes → Bytes → Bytes → Bytes → List (Option BbExc) → Prop where
  | nil (x y : Bytes) : IdealRun [] x y x y []
  | cons (op : BbOp) (ops : List BbOp) (x y x1 y1 x2 y2 : Bytes) (e : Option BbExc) (es : List (Option BbExc)) :
      IdealOp op x y x1 y1 e → IdealRun ops x1 y1 x2 y2 es → IdealRun (op :: ops) x y x2 y2 (e :: es)

end StAsio
