import Verif.Model.LinkCut
import Verif.Spec.Protocols
/-!
What the applications see at the end of a link.
-/
set_option autoImplicit false
namespace StAsio

/-- What the two applications saw of the messages. -/
def cutSeen (es : List CutEv) : List PEv :=
  es.filterMap (fun e => match e with
    | .pipe e => some e
    | _ => none)

/-- The message on_msg_handle refused when it was called last; `none` if it accepted then, or was not called at all. -/
def lastRefused (es : List PEv) : Option Bytes :=
  es.foldl (fun o e => match e with
    | .handled m ok => if ok then none else some m
    | _ => o) none

/-- The applications keep to the protocol. -/
def CutAct.Allowed (P : Proto) : CutAct → Prop
  | .pipe a => a.Allowed P
  | _ => True

/-- What the library, the kernel and the network do on their own, the receiving application accepting messages. -/
def CutAct.Internal : CutAct → Prop
  | .pipe a => a.Internal
  | .readEnd => True
  | .tick other => other = false
  | _ => False

end StAsio
