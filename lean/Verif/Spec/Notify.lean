import Verif.Model.Notify
/-!
What the notifications of the send path should tell the user.
-/
set_option autoImplicit false
namespace StAsio

/-- The accepted messages, in order. -/
def ntAccepted : List NtEv → List Bytes
  | [] => []
  | .accepted ms _ :: es => ms ++ ntAccepted es
  | _ :: es => ntAccepted es

/-- The messages written successfully, in order. -/
def ntWritten : List NtEv → List Bytes
  | [] => []
  | .written ms :: es => ms ++ ntWritten es
  | _ :: es => ntWritten es

/-- The messages on_msg_send was called with, in order. -/
def ntNotified : List NtEv → List Bytes
  | [] => []
  | .onSend ms _ :: es => ms ++ ntNotified es
  | _ :: es => ntNotified es

/-- The messages on_send_error was called with, in order. -/
def ntFailed : List NtEv → List Bytes
  | [] => []
  | .failed ms :: es => ms ++ ntFailed es
  | _ :: es => ntFailed es

/-- The messages popped, discarded or cleared, in order. -/
def ntRemoved : List NtEv → List Bytes
  | [] => []
  | .removed ms :: es => ms ++ ntRemoved es
  | _ :: es => ntRemoved es

end StAsio
