import Verif.Address.Model
import Verif.Node.LifeCycle

/-!
Model of the addresses of stream connections: the name given to an accepted connection (`src/channel_io_stream.cpp:873-890`, `:957-966`),
the address a name is resolved to (`:991-1059`, `:1285-1351`), the socket address that a listen or connect call hands to the system
(`:1086-1117`, `:1398-1409`), and the comparison of the address of a connection with the configured address of the parent
(`src/atbus_node.cpp:1536-1537`, `src/atbus_msg_handler.cpp:886`, `:1057`).

Part of the model, not of the code: `uv_ip4_name` and `uv_ip6_name` give the text of an address, the parameter `ip`; `uv_ip4_addr` and
`uv_ip6_addr` store `htons(port)`; `uv_pipe_getpeername` and `uv_pipe_getsockname` fail when the name does not fit into the buffer, whose
size they are given, and tell the size that is needed (libuv documentation).  The machine is little endian.
-/
namespace Verif.Node.PeerAddr

open Verif.Address

/-- A `channel_address_t`, `include/detail/libatbus_channel_types.h:52-57`. -/
structure Name where
  text : List Char
  addr : Addr
deriving DecidableEq, Repr

/-- `make_address(scheme, host, port, addr)`, `src/channel_utility.cpp:38-51`. -/
def make (scheme host : List Char) (port : Int) : Name := ⟨format scheme host port, ⟨scheme, host, port⟩⟩

/-- The other end of a TCP connection. -/
structure Sock where
  v6 : Bool
  ip : List Char
  port : Nat
deriving DecidableEq, Repr

/-- The two bytes of `sin_port` or `sin6_port`, in the order of their addresses: network byte order. -/
def wire (port : Nat) : Nat × Nat := (port / 256, port % 256)

/-- The value of a `uint16_t` with these bytes. -/
def load (b : Nat × Nat) : Nat := b.1 + 256 * b.2

/-- The name of the scheme. -/
def scheme (v6 : Bool) : List Char := if v6 then "ipv6".toList else "ipv4".toList

/-- The address of a connection accepted by `io_stream_tcp_connection_cb`, `src/channel_io_stream.cpp:876-890`: `uv_tcp_getpeername` and
`make_address` with `sin_port` as it is stored.  `none`: `uv_tcp_getpeername` fails (the other end is gone), and the uninitialised
`sock_addr` is read. -/
def acceptTcp (peer : Option Sock) : Option Name := peer.map fun p => make (scheme p.v6) p.ip (load (wire p.port))

/-- `uv_pipe_getpeername` and `uv_pipe_getsockname` of a socket with this name: the buffer, and the size after the call. -/
def getName (name buf : List Char) (size : Nat) : List Char × Nat :=
  if name.length < size then (name, name.length) else (buf, name.length + 1)

/-- The address of a connection accepted by `io_stream_pipe_connection_cb`, `src/channel_io_stream.cpp:960-966`; `own` is the name of the
socket itself, `peer` that of the other end (empty for a client that did not bind), `max` is `MAX_PATH`.  A name in the abstract name space
begins with NUL, and the C string in the buffer is then empty. -/
def acceptPipe (max : Nat) (own peer : List Char) : Name :=
  let (buf, size) := getName peer [] max
  let (buf, _) := if size = 0 ∨ buf.headD '\x00' = '\x00' then getName own buf size else (buf, size)
  make "unix".toList (buf.takeWhile (· ≠ '\x00')) 0

/-- The socket address that `io_stream_listen` and `io_stream_connect` make of an address, `src/channel_io_stream.cpp:1077-1117`,
`:1370-1409`; `none`: not a TCP address.  `htons` takes the port modulo 65536. -/
def target (a : Addr) : Option Sock :=
  if prefixCI "ipv4".toList a.scheme || prefixCI "ipv6".toList a.scheme then
    some ⟨a.scheme[3]? != some '4', a.host, (a.port % 65536).toNat⟩
  else none

/-- The address that a name was resolved to, `src/channel_io_stream.cpp:1026-1044`, `:1318-1336`. -/
def resolved (a : Addr) (v6 : Bool) (ip : List Char) : Name := make (scheme v6) ip a.port

/-- A connection with this address counts as the connection to the parent, `src/atbus_node.cpp:1536-1537`,
`src/atbus_msg_handler.cpp:886`, `:1057`. -/
def ofParent (parent : List Char) (n : Name) : Bool := n.text == parent

/-- `node::on_disconnect` of a connection with this address, `src/atbus_node.cpp:1530-1550` (`Life.connectionLostF`); the node has the
configured address `parent`. -/
def lost (hook : Life.S → Option Life.S) (parent : List Char) (n : Name) (s : Life.S) : Option Life.S :=
  if ofParent parent n then Life.connectionLostF hook s else some s

end Verif.Node.PeerAddr
