/-!
Settings of a socket, and which addresses a call of add_socket asks for.
Nothing here refers to the model.
-/
set_option autoImplicit false
namespace StAsio

/-- What can be set for a socket. -/
inductive Setting where
  /-- TCP clients: the server -/
  | server
  /-- the address to bind to -/
  | loc
  /-- UDP: the peer -/
  | peer
  /-- UDP: set_connect_mode -/
  | connectMode
  | sendBuf | recvBuf | resumeMs | handleMs
  /-- which packer and unpacker -/
  | packer | unpacker
  /-- a call back registered by register_on_connect, ... -/
  | callBack (k : Nat)
  /-- TCP clients: set_reconnect -/
  | reconnect
  deriving DecidableEq, Repr

/-- Values: a number, which stands for anything that is not an address, or an address (`none`: 0.0.0.0 or ::) and a port. -/
inductive SetVal where
  | num (n : Nat)
  | ep (ip : Option Nat) (port : Nat)
  deriving DecidableEq, Repr

/-- An ip given as a string: empty, a valid one, or not an ip. -/
inductive IpArg where
  | empty
  | good (ip : Nat)
  | bad
  deriving DecidableEq, Repr

/-- The endpoint meant by an ip and a port; `none` if the ip is not valid. -/
def IpArg.endpoint (ip : IpArg) (port : Nat) : Option SetVal := match ip with
  | .empty => some (.ep none port)
  | .good a => some (.ep (some a) port)
  | .bad => none

/-- Calls that make, configure and add a socket. -/
inductive AddCall where
  /-- tcp::multi_client_base::add_socket() -/
  | tcp0
  /-- tcp::multi_client_base::add_socket(port, ip) -/
  | tcp2 (port : Nat) (ip : IpArg)
  /-- tcp::multi_client_base::add_socket(port, local_port, ip, local_ip) -/
  | tcp4 (port localPort : Nat) (ip localIp : IpArg)
  /-- udp::multi_socket_service_base::add_socket(port, ip) -/
  | udp2 (port : Nat) (ip : IpArg)
  /-- udp::multi_socket_service_base::add_socket(port, peer_port, ip, peer_ip) -/
  | udp4 (port peerPort : Nat) (ip peerIp : IpArg)
  deriving DecidableEq, Repr

/-- What a call says about a setting: `none` if nothing. -/
def AddCall.says : AddCall → Setting → Option (Option SetVal)
  | .tcp2 p ip, .server => some (ip.endpoint p)
  | .tcp4 p _ ip _, .server => some (ip.endpoint p)
  | .tcp4 _ lp _ lip, .loc => some (lip.endpoint lp)
  | .udp2 p ip, .loc => some (ip.endpoint p)
  | .udp4 p _ ip _, .loc => some (ip.endpoint p)
  | .udp4 _ pp _ pip, .peer => some (pip.endpoint pp)
  | _, _ => none

/-- What a user who knows the defaults expects: what the call says, the default where it says nothing; nothing at all is expected to work with an ip that is not valid. -/
def AddCall.asks (c : AddCall) (dflt : Setting → SetVal) (m : Setting) : Option SetVal := match c.says m with
  | some v => v
  | none => some (dflt m)

end StAsio
