import Verif.Node.PeerAddr

/-!
Model of how `io_stream_listen` and `io_stream_connect` make a socket address of the text of a host (`src/channel_io_stream.cpp:1077-1148`,
`:1370-1440`), and of the text of a resolved or accepted address (`:876-890`, `:1026-1044`, `:1318-1336`).

Part of the model, not of the code: `uv_ip4_addr` clears the address, stores `htons(port)`, and stores the four bytes only if the text is a
dotted quad (`pton4`, from `inet_pton4` of libuv); its result tells whether it is one, and the callers do not look at it.  `uv_ip6_addr` does
the same with sixteen bytes and another syntax, the parameter `pton6`.  `uv_ip4_name` prints the four bytes with `%u.%u.%u.%u`.  What the
system answers to `bind`, `listen` and `connect` is a parameter.  Memory is not exhausted, the channel is not closing.
-/
namespace Verif.Node.IpAddr

open Verif.Address

/-! ### libuv -/

/-- The variables of `inet_pton4`: the bytes before the one being read, that byte, and `saw_digit`.  `octets` is their number. -/
structure Scan where
  before : List Nat
  cur : Nat
  saw : Bool
deriving DecidableEq, Repr

/-- `octets` of `inet_pton4`. -/
def Scan.octets (s : Scan) : Nat := s.before.length + if s.saw then 1 else 0

/-- One character, the loop of `inet_pton4`. -/
def scan (s : Scan) (c : Char) : Option Scan :=
  if isDigit c then
    let nw := s.cur * 10 + (c.toNat - 48)
    if s.saw && s.cur == 0 then none
    else if nw > 255 then none
    else if s.saw then some { s with cur := nw }
    else if s.octets + 1 > 4 then none
    else some { s with cur := nw, saw := true }
  else if c == '.' && s.saw then
    if s.octets = 4 then none else some ⟨s.before ++ [s.cur], 0, false⟩
  else none

/-- `inet_pton4`: the four bytes, or `UV_EINVAL`. -/
def pton4 (t : List Char) : Option (List Nat) :=
  match t.foldlM scan ⟨[], 0, false⟩ with
  | none => none
  | some s => if s.octets < 4 then none else some (s.before ++ [s.cur])

/-- `uv_ip4_name`, used in `src/channel_io_stream.cpp:888`, `:1029`, `:1321`. -/
def name4 : List Nat → List Char
  | [] => []
  | [b] => dec b
  | b :: bs => dec b ++ '.' :: name4 bs

/-- A socket address. -/
structure Sock where
  v6 : Bool
  ip : List Nat
  port : Nat
deriving DecidableEq, Repr

/-- `uv_ip4_addr`: what is stored.  The result of the call is not used, `src/channel_io_stream.cpp:1094`, `:1402`. -/
def ip4 (host : List Char) (port : Int) : Sock := ⟨false, (pton4 host).getD [0, 0, 0, 0], (port % 65536).toNat⟩

/-- `uv_ip6_addr`: what is stored, `src/channel_io_stream.cpp:1108`, `:1405`. -/
def ip6 (pton6 : List Char → Option (List Nat)) (host : List Char) (port : Int) : Sock :=
  ⟨true, (pton6 host).getD (List.replicate 16 0), (port % 65536).toNat⟩

/-! ### The code -/

/-- The answers of the system. -/
structure Sys where
  bind : Sock → Bool
  listen : Sock → Bool
  connect : Sock → Bool

/-- `EN_ATBUS_ERR_SOCK_BIND_FAILED`, `include/detail/libatbus_error.h:58`. -/
def SOCK_BIND_FAILED : Int := -401
/-- `EN_ATBUS_ERR_SOCK_LISTEN_FAILED` -/
def SOCK_LISTEN_FAILED : Int := -402
/-- `EN_ATBUS_ERR_SOCK_CONNECT_FAILED` -/
def SOCK_CONNECT_FAILED : Int := -403

/-- The socket address for an address with a TCP scheme, `src/channel_io_stream.cpp:1092-1108`, `:1401-1407`. -/
def sockAddr (pton6 : List Char → Option (List Nat)) (a : Addr) : Sock :=
  if a.scheme[3]? = some '4' then ip4 a.host a.port else ip6 pton6 a.host a.port

/-- The schemes of TCP addresses, `src/channel_io_stream.cpp:1077-1078`, `:1370-1371`. -/
def isTcp (a : Addr) : Bool := prefixCI "ipv4".toList a.scheme || prefixCI "ipv6".toList a.scheme

/-- `io_stream_listen` for a TCP address, `src/channel_io_stream.cpp:1077-1148`: the result, and the socket that listens. -/
def listenTcp (pton6 : List Char → Option (List Nat)) (sys : Sys) (a : Addr) : Int × Option Sock :=
  let s := sockAddr pton6 a
  if !sys.bind s then (SOCK_BIND_FAILED, none)
  else if !sys.listen s then (SOCK_LISTEN_FAILED, none)
  else (Err.SUCCESS, some s)

/-- `io_stream_connect` for a TCP address, `src/channel_io_stream.cpp:1370-1440`: the result, and the address connected to. -/
def connectTcp (pton6 : List Char → Option (List Nat)) (sys : Sys) (a : Addr) : Int × Option Sock :=
  let s := sockAddr pton6 a
  if !sys.connect s then (SOCK_CONNECT_FAILED, none) else (Err.SUCCESS, some s)

/-- A name that was resolved to an IPv4 address, `src/channel_io_stream.cpp:1026-1033`, `:1318-1325`: the address listened at or connected
to. -/
def resolved4 (ip : List Nat) (port : Int) : Addr := ⟨"ipv4".toList, name4 ip, port⟩

end Verif.Node.IpAddr
