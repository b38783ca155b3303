import Verif.Model.Protocols
import Verif.Spec.EndToEnd
import Verif.Spec.PrefixSuffix
/-!
What a packer/unpacker pair promises: which messages it carries, what they look like on the wire and what the other side is handed over.
-/
set_option autoImplicit false
namespace StAsio

/-- The settings are usable: the ones the library itself asserts, a length that is not 0, a header that can express every size. -/
def Proto.Valid : Proto → Prop
  | .plain c _ | .flexible c _ | .nonCopy c => c.Valid ∧ c.bufSize < 256 ^ c.headLen
  | .fixed c len => c.Valid ∧ 0 < len
  | .prefixSuffix c p _ => c.Valid ∧ p.Valid c
  | .stream c => c.Valid

/-- The wire form of a message. -/
def Proto.wire : Proto → Item → Bytes
  | .plain c _ | .flexible c _ | .nonCopy c => StAsio.wire c.headLen
  | .prefixSuffix _ p _ => psWire p.pre p.suf
  | .fixed _ _ | .stream _ => id

/-- The application may make this call: it owns the memory it passes, and the protocol can express the message. With fixed length this means the
right length, with prefix and suffix that the suffix does not appear early; fixed_length_packer has no usable heartbeat (C06). -/
def Proto.Sendable (P : Proto) (call : SendCall) : Prop :=
  (∀ ps, call = .array ps → Readable ps) ∧
  match P with
  | .fixed _ len => call ≠ .heartbeat ∧ call.body.length = len
  | .prefixSuffix _ p _ => NoEarlySuffix p.suf call.body
  | .stream _ => call ≠ .heartbeat
  | _ => True

/-- What the receiving application is handed over for one message: nothing for an empty one (a heartbeat), otherwise the message as it was sent, or its wire form when
the unpacker was told not to strip. -/
def Proto.seen (P : Proto) (b : Item) : List Bytes :=
  if b = [] then []
  else
    match P with
    | .plain _ st | .flexible _ st | .prefixSuffix _ _ st => [if st then b else P.wire b]
    | _ => [b]

/-- The messages contained completely in the first `n` bytes of the stream. -/
def Proto.inBytes (P : Proto) : List Item → Nat → List Bytes
  | [], _ => []
  | b :: rest, n => if n < (P.wire b).length then [] else P.seen b ++ Proto.inBytes P rest (n - (P.wire b).length)

/-- `ms` is what must have been handed over once the first `n` bytes of the stream of `items` were read: the messages contained completely in these bytes; without a
protocol these bytes themselves, in pieces that are not empty. -/
def Proto.Shown (P : Proto) (items : List Item) (n : Nat) (ms : List Bytes) : Prop :=
  match P with
  | .stream _ => ms.flatten = items.flatten.take n ∧ ∀ m ∈ ms, m ≠ []
  | _ => ms = P.inBytes items n

/-- `ms` is everything that was sent. -/
def Proto.Everything (P : Proto) (items : List Item) (ms : List Bytes) : Prop :=
  match P with
  | .stream _ => ms.flatten = items.flatten ∧ ∀ m ∈ ms, m ≠ []
  | _ => ms = items.flatMap P.seen

/-- `ms` is a beginning of what was sent. -/
def Proto.Beginning (P : Proto) (items : List Item) (ms : List Bytes) : Prop :=
  match P with
  | .stream _ => ms.flatten <+: items.flatten
  | _ => ms <+: items.flatMap P.seen

/-- `ms` contains all of what was sent, as its beginning: nothing of it is missing, and nothing comes before it. -/
def Proto.Contains (P : Proto) (items : List Item) (ms : List Bytes) : Prop :=
  match P with
  | .stream _ => items.flatten <+: ms.flatten
  | _ => items.flatMap P.seen <+: ms

/-- The applications keep to the protocol. -/
def PAct.Allowed (P : Proto) : PAct → Prop
  | .send call _ => P.Sendable call
  | _ => True

end StAsio
