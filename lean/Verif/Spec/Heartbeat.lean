import Verif.Model.Heartbeat
/-!
How long the peer, or this side, was silent, read off a history.
-/
set_option autoImplicit false
namespace StAsio

/-- Milliseconds since the last reception (or the start); `none` if there was none. -/
def silentFor : List HbAct → Option Nat
  | as => as.foldl (fun (x : Option Nat) a => match a with
    | .pass d => x.map (· + d)
    | .start => some 0
    | .recv => some 0
    | _ => x) none

/-- Milliseconds since the last completed send; `none` if there was none. -/
def quietFor : List HbAct → Option Nat
  | as => as.foldl (fun (x : Option Nat) a => match a with
    | .pass d => x.map (· + d)
    | .sendEnd => some 0
    | _ => x) none

/-- Milliseconds since the peer's last data arrived, received or not. -/
def peerSilentFor : List HbAct → Option Nat
  | as => as.foldl (fun (x : Option Nat) a => match a with
    | .pass d => x.map (· + d)
    | .start => some 0
    | .recv => some 0
    | .arrive => some 0
    | _ => x) none

/-- The link is up after the history. -/
def linkIsUp : List HbAct → Bool
  | as => as.foldl (fun x a => match a with | .linkUp => true | .linkDown => false | _ => x) false

/-- A send is in progress after the history. -/
def sendInProgress : List HbAct → Bool
  | as => as.foldl (fun x a => match a with | .sendBegin => true | .sendEnd => false | _ => x) false

end StAsio
