import Verif.Address.Model

/-!
Model of listening and of what it does to the file system: `src/atbus_node.cpp` (listen 674-704), `src/atbus_connection.cpp` (listen
144-255, the callback 492-524), `src/channel_io_stream.cpp` (listen 1060-1221) and `src/atbus_endpoint.cpp` (add_listen 403-416).

* A path is the list of its characters, a file is known by its absolute path.  `util::file_system` is not in this repository:
  `abs` is `get_abs_path` (of the working directory), the other functions do what their names say.  Directories made for a socket
  (`src/channel_io_stream.cpp:1146-1155`) are not recorded.
* Results of the system and of memory channels are parameters.  The connection that listens is always a new one, as in `node::listen`.
* The result of resolving a name comes later; the file system is not touched by it.
-/
namespace Verif.Err
/-- `include/detail/libatbus_error.h:58`. -/
def SOCK_BIND_FAILED : Int := -401
/-- `include/detail/libatbus_error.h:59`. -/
def SOCK_LISTEN_FAILED : Int := -402
/-- `include/detail/libatbus_error.h:62`. -/
def PIPE_BIND_FAILED : Int := -501
/-- `include/detail/libatbus_error.h:63`. -/
def PIPE_LISTEN_FAILED : Int := -502
/-- `include/detail/libatbus_error.h:65`. -/
def PIPE_ADDR_TOO_LONG : Int := -504
/-- `include/detail/libatbus_error.h:68`. -/
def DNS_GETADDR_FAILED : Int := -601
end Verif.Err

namespace Verif.Node.Listen

open Verif.Address (parse Parsed Addr prefixCI)

/-- A text: an address or a path. -/
abbrev Text := List Char

/-- `is_abs_path`. -/
def isAbs (p : Text) : Bool := p.head? == some '/'

/-- The file that a process with the working directory of `abs` finds under a path. -/
def real (abs : Text → Text) (p : Text) : Text := if isAbs p then p else abs p

/-- Constants of a process. -/
structure Conf where
  /-- `get_abs_path` -/
  abs : Text → Text
  /-- `io_stream_get_max_unix_socket_length`, `src/channel_io_stream.cpp:1806-1811`; 0: no limit -/
  max : Nat
  /-- `ATBUS_CHANNEL_SHM` -/
  shm : Bool

/-- What the system answers during one call. -/
structure Env where
  /-- `util::file_system::remove` works -/
  remove : Bool := true
  /-- result of `mem_attach`/`mem_init`, `src/atbus_connection.cpp:162-165` -/
  mem : Int := 0
  /-- result of `shm_attach`/`shm_init`, 191-194 -/
  shm : Int := 0
  /-- the channel is closing, `src/channel_io_stream.cpp:1067-1069` -/
  closing : Bool := false
  /-- `uv_tcp_bind`, `uv_pipe_bind` work if the name is free; `uv_listen` works; `uv_getaddrinfo` takes the request -/
  bind : Bool := true
  sys : Bool := true
  dns : Bool := true
  /-- `uv_fileno` works, 760-763 -/
  fileno : Bool := true
  /-- `self_->add_connection` works, `src/atbus_node.cpp:694-696` -/
  add : Bool := true

/-- The members used, and the part of the world outside. -/
structure S where
  /-- absolute paths of all files -/
  files : List Text := []
  /-- `self_->listen_address_` -/
  announced : List Text := []
  /-- unix sockets of this node that listen, with the text of the call (ghost) -/
  bound : List (Text × Text) := []
  /-- files removed (ghost) -/
  removed : List Text := []

/-- Path that is used for a unix socket, `src/atbus_connection.cpp:221-229`. -/
def resolve (cf : Conf) (host : Text) : Text :=
  if isAbs host then host
  else if cf.max > 0 ∧ (cf.abs host).length ≤ cf.max then cf.abs host
  else host

/-- Removal of a file in the way, `src/atbus_connection.cpp:233-237`. -/
def clear (cf : Conf) (e : Env) (s : S) (host : Text) : S :=
  let p := real cf.abs host
  if p ∈ s.files ∧ e.remove then { s with files := s.files.filter (· ≠ p), removed := s.removed ++ [p] } else s

/-- `io_stream_listen`, `src/channel_io_stream.cpp:1060-1221`; `text` is for the record only. -/
def ioListen (cf : Conf) (e : Env) (text : Text) (s : S) (a : Addr) : S × Int :=
  if e.closing then (s, Err.CHANNEL_CLOSING)
  else if prefixCI "ipv4".toList a.scheme || prefixCI "ipv6".toList a.scheme then
    if !e.bind then (s, Err.SOCK_BIND_FAILED)
    else if !e.sys then (s, Err.SOCK_LISTEN_FAILED)
    else if !e.fileno then (s, Err.MALLOC)
    else (s, Err.SUCCESS)
  else if prefixCI "unix".toList a.scheme then
    if cf.max ≠ 0 ∧ a.host.length ≥ cf.max then (s, Err.PIPE_ADDR_TOO_LONG)
    else
      let p := real cf.abs a.host
      if p ∈ s.files ∨ !e.bind then (s, Err.PIPE_BIND_FAILED)
      else
        -- the socket is a file now; it stays when the rest fails (libuv removes it when the handle is closed)
        if !e.sys then (s, Err.PIPE_LISTEN_FAILED)
        else if !e.fileno then (s, Err.MALLOC)
        else ({ s with files := s.files ++ [p], bound := s.bound ++ [(text, p)] }, Err.SUCCESS)
  else if prefixCI "dns".toList a.scheme then
    if e.dns then (s, Err.SUCCESS) else (s, Err.DNS_GETADDR_FAILED)
  else (s, Err.CHANNEL_NOT_SUPPORT)

/-- `connection::listen` of a new connection, `src/atbus_connection.cpp:144-255`; `none`: the call does not return normally (C54).  Only the
host of the address is changed, not its text. -/
def connListen (cf : Conf) (e : Env) (s : S) (text : Text) : Option (S × Int) :=
  match parse text with
  | .refused => some (s, Err.CHANNEL_ADDR_INVALID)
  | .throws => none
  | .undef => none
  | .ok a =>
    if prefixCI "mem".toList a.scheme then some (s, e.mem)
    else if prefixCI "shm".toList a.scheme then some (s, if cf.shm then e.shm else Err.CHANNEL_NOT_SUPPORT)
    else
      let host := if prefixCI "unix".toList a.scheme then resolve cf a.host else a.host
      let s := clear cf e s host
      some (ioListen cf e text s { a with host := host })

/-- `node::listen`, `src/atbus_node.cpp:674-704`, with `endpoint::add_listen`, `src/atbus_endpoint.cpp:403-416`. -/
def listen (cf : Conf) (s : S) (text : Text) (e : Env) : Option (S × Int) :=
  match connListen cf e s text with
  | none => none
  | some (s, r) =>
    if r < 0 then some (s, r)
    else if !e.add then some (s, Err.ALREADY_INITED)
    else some ({ s with announced := if text = [] then s.announced else s.announced ++ [text] }, Err.SUCCESS)

/-- Calls one after the other. -/
def run (cf : Conf) (s : S) : List (Text × Env) → Option S
  | [] => some s
  | (t, e) :: cs =>
    match listen cf s t e with
    | none => none
    | some (s, _) => run cf s cs

end Verif.Node.Listen
