/-!
What file_client shows to its user: the commands it is given, the files it works on, the bytes it moves.
-/
set_option autoImplicit false
namespace StAsio

/-- A file to transfer: its number and whether it goes to the server (put) or comes from it (get). -/
structure FileReq where
  put : Bool
  f : Nat
  deriving DecidableEq, Repr

/-- The world around file_client: how many links there are, which of them can open (or create) a file, how long the files are. -/
structure FcEnv where
  n : Nat
  can : Nat → Nat → Bool
  len : Nat → Nat

/-- All links can open a file or none can. -/
def FcEnv.Uniform (env : FcEnv) : Prop := ∀ f i j, env.can f i = env.can f j

inductive FcEv where
  /-- the user asks for these files -/
  | given (rs : List FileReq)
  /-- "transmit begin", and the links were told -/
  | began (r : FileReq)
  /-- "transmit failed!" -/
  | failed (r : FileReq)
  /-- a link moved this many bytes of this file -/
  | moved (f k : Nat)
  /-- "100%" -/
  | done
  /-- file_client is through with the file: all links are idle -/
  | quiet
  deriving DecidableEq, Repr

/-- The files the user asked for. -/
def FcEv.givenOf : List FcEv → List FileReq
  | [] => []
  | .given rs :: es => rs ++ FcEv.givenOf es
  | _ :: es => FcEv.givenOf es

/-- The files file_client took on. -/
def FcEv.takenOf : List FcEv → List FileReq
  | [] => []
  | .began r :: es => r :: FcEv.takenOf es
  | .failed r :: es => r :: FcEv.takenOf es
  | _ :: es => FcEv.takenOf es

/-- A history is right: one file at a time; only a file which cannot be opened fails; the bytes moved belong to the file being worked on and are at most as many as it has; "100%" says that all of them have been moved.
`c`: the file being worked on and how many of its bytes have been moved. -/
def FcEv.rightFrom (env : FcEnv) : Option (FileReq × Nat) → List FcEv → Bool
  | _, [] => true
  | c, .given _ :: es => FcEv.rightFrom env c es
  | none, .began r :: es => (r.put || env.can r.f 0) && FcEv.rightFrom env (some (r, 0)) es
  | some _, .began _ :: _ => false
  | none, .failed r :: es => !r.put && !env.can r.f 0 && FcEv.rightFrom env none es
  | some _, .failed _ :: _ => false
  | some (r, m), .moved f k :: es => decide (f = r.f ∧ m + k ≤ env.len f) && FcEv.rightFrom env (some (r, m + k)) es
  | none, .moved _ _ :: _ => false
  | some (r, m), .done :: es => decide (m = env.len r.f) && FcEv.rightFrom env (some (r, m)) es
  | none, .done :: _ => false
  | some _, .quiet :: es => FcEv.rightFrom env none es
  | none, .quiet :: _ => false

end StAsio
