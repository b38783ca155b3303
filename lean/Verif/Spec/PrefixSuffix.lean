import Verif.Spec.Frames
/-!
Specification of the "[prefix] + body + suffix" protocol (comment in include/ext/unpacker.h:607), independent of the unpacker.
-/
set_option autoImplicit false
namespace StAsio

/-- The wire format of one body (an empty body is a heartbeat). -/
def psWire (pre suf : Bytes) (body : Item) : Bytes := pre ++ body ++ suf

/-- The suffix does not appear early: in `body ++ suf` it occurs for the first time behind the body. -/
def NoEarlySuffix (suf : Bytes) (body : Item) : Prop := ∀ i, i < body.length → ¬ suf <+: (body ++ suf).drop i

/-- The messages an application must have received once the first `n` bytes of the stream of `items` have arrived. -/
def psArrived (pre suf : Bytes) (stripped : Bool) : List Item → Nat → List Bytes
  | [], _ => []
  | b :: rest, n =>
    if n < (psWire pre suf b).length then []
    else (if b = [] then [] else [if stripped then b else psWire pre suf b]) ++
      psArrived pre suf stripped rest (n - (psWire pre suf b).length)

/-- A byte string can not be continued to something beginning with a good message (of at most `maxLen` bytes): it does
not start with the prefix, or `maxLen` bytes contain no suffix behind the prefix. -/
def PsMalformed (pre suf : Bytes) (maxLen : Nat) (g : Bytes) : Prop :=
  (pre.length ≤ g.length ∧ ¬ pre <+: g) ∨
  (maxLen ≤ g.length ∧ ∀ i, pre.length + i + suf.length ≤ maxLen → ¬ suf <+: g.drop (pre.length + i))

end StAsio
