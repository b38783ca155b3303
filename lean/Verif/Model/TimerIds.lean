import Verif.Model.Timer
/-!
The IDs of timers in the class hierarchies of the library. Each class reserves a range of IDs that begins at TIMER_END of its super class (timer.h:24, 53). IDs are unsigned short (timer.h:52), so all sums are taken modulo 65536.
Which call backs are set under these IDs, and when, is in the models of the classes.
-/
set_option autoImplicit false
namespace StAsio

/-- The part of a class: offsets of the IDs it uses from TIMER_BEGIN, and TIMER_END - TIMER_BEGIN. -/
structure TClass where
  used : List Nat
  size : Nat
  deriving DecidableEq, Repr

/-- TIMER_END of a class whose super class ends at `b`, e.g. socket.h:31, 36; conversion to tid, timer.h:52. -/
def TClass.endFrom (b : Nat) (c : TClass) : Nat := (b + c.size) % 65536

/-- TIMER_END of the most derived class; the base ends at 0, timer.h:53. -/
def timerEnd (cs : List TClass) : Nat := cs.foldl TClass.endFrom 0

/-- The IDs a class uses if its super class ends at `b`, e.g. socket.h:32-35. -/
def TClass.ids (b : Nat) (c : TClass) : List Nat := c.used.map fun o => (b + o) % 65536

/-- The IDs of the classes, base first. -/
def timerIdsFrom (b : Nat) : List TClass → List (List Nat)
  | [] => []
  | c :: cs => c.ids b :: timerIdsFrom (c.endFrom b) cs

def timerIds (cs : List TClass) : List (List Nat) := timerIdsFrom 0 cs

/-- socket.h:31-36: TIMER_CHECK_RECV, TIMER_DISPATCH_MSG, TIMER_DELAY_CLOSE, TIMER_HEARTBEAT_CHECK -/
def tcSocket : TClass := ⟨[0, 1, 2, 3], 10⟩
/-- tcp/socket.h:85-87: TIMER_ASYNC_SHUTDOWN -/
def tcTcp : TClass := ⟨[0], 5⟩
/-- tcp/client_socket.h:26-29: TIMER_CONNECT_DELAY, TIMER_CONNECT -/
def tcClient : TClass := ⟨[0, 1], 5⟩
/-- udp/reliable_socket.h:31-34: TIMER_CC, TIMER_KCP_UPDATE -/
def tcReliable : TClass := ⟨[0, 1], 5⟩
/-- object_pool.h:38-41: TIMER_FREE_SOCKET, TIMER_CLEAR_SOCKET -/
def tcPool : TClass := ⟨[0, 1], 10⟩

/-- The hierarchies of the library: sockets of TCP servers (also SSL and websocket, which define no timers), of TCP clients, UDP sockets (udp/socket.h defines none), reliable UDP sockets; object pools, i.e. TCP servers and services with many
clients; a single client or service and simple timers, which have none (ext/tcp.h, socket_service.h). -/
def libChains : List (List TClass) := [[tcSocket, tcTcp], [tcSocket, tcTcp, tcClient], [tcSocket], [tcSocket, tcReliable], [tcPool], []]

end StAsio
