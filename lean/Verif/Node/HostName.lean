import Verif.Basic

/-!
# The name of a host and the hash code of a node

`node::get_hostname`, `node::set_hostname`, `host_name_buffer` (src/atbus_node.cpp 1266-1358), `node::init_hash_code`
(src/atbus_node.cpp 2138-2218), `endpoint::update_hash_code` (src/atbus_endpoint.cpp 239-245).

The name decides which nodes are taken to be on the same host: src/atbus_endpoint.cpp 490, src/atbus_msg_handler.cpp
351, 822, 921.

What comes from outside is a parameter: the list of interfaces that `uv_interface_addresses` gives, the answer of
`gethostname`, the table of digits of `util::string::dumphex` (this function is not in the repository), and SHA-256, which
is not modelled: the theorems are about the bytes that are given to it.  A text is the list of its bytes.
-/

namespace Verif.Node.HostName

/-- A text or a string of bytes. -/
abbrev Text := List Nat

/-- `uv_interface_address_t`, the two members that are read: `is_internal` and the six bytes of `phys_addr`. -/
structure Inter where
  internal : Bool
  phys : List (Fin 256)
deriving DecidableEq, Repr

/-- The loop over `dump_index`: leading zero bytes are left out (src/atbus_node.cpp 1288-1291, 2156-2159). -/
def trim : List (Fin 256) → List (Fin 256)
  | [] => []
  | b :: bs => if b = 0 then trim bs else b :: bs

/-- `util::string::dumphex`: two digits for each byte, the upper half first.  The digits are the table `dig`. -/
def hex (dig : Fin 16 → Nat) : List (Fin 256) → Text
  | [] => []
  | b :: bs => dig ⟨b.val / 16, by omega⟩ :: dig ⟨b.val % 16, by omega⟩ :: hex dig bs

/-- `one_addr` of all external interfaces that have an address (src/atbus_node.cpp 1281-1303, 2149-2170). -/
def found (dig : Fin 16 → Nat) : List Inter → List Text
  | [] => []
  | i :: is =>
    if i.internal then found dig is
    else if (hex dig (trim i.phys)).isEmpty then found dig is
    else hex dig (trim i.phys) :: found dig is

/-- `std::string::operator<`: lexicographic order of bytes. -/
def lt : Text → Text → Bool
  | [], [] => false
  | [], _ :: _ => true
  | _ :: _, [] => false
  | a :: as, b :: bs => if a < b then true else if b < a then false else lt as bs

/-- One step of sorting. -/
def insert (t : Text) : List Text → List Text
  | [] => [t]
  | u :: us => if lt u t then u :: insert t us else t :: u :: us

/-- `std::sort` (src/atbus_node.cpp 1309, 2172). -/
def sort : List Text → List Text
  | [] => []
  | t :: ts => insert t (sort ts)

/-- `std::unique` and `erase` (src/atbus_node.cpp 1310-1311, 2173-2174): of neighbours that are equal the first stays. -/
def unique : List Text → List Text
  | [] => []
  | [t] => [t]
  | t :: u :: us => if t = u then unique (u :: us) else t :: unique (u :: us)

/-- `all_outter_inters` at the end. -/
def names (dig : Fin 16 → Nat) (is : List Inter) : List Text := unique (sort (found dig is))

/-- The loop that appends the texts with `":"` between them (src/atbus_node.cpp 1312-1317). -/
def join : List Text → Text
  | [] => []
  | [t] => t
  | t :: u :: us => t ++ 58 :: join (u :: us)

/-- What the process sees of its machine when a function is called. -/
structure Env where
  inters : List Inter
  /-- the text in `buffer` if `gethostname` returns 0 -/
  host : Option Text

/-- `node::get_hostname` with the buffer before the call (src/atbus_node.cpp 1271-1349; the part for Windows is left
out).  It returns a reference to the buffer, so the result is the new buffer. -/
def get (dig : Fin 16 → Nat) (e : Env) (buf : Text) : Text :=
  if !buf.isEmpty then buf
  else if !(join (names dig e.inters)).isEmpty then join (names dig e.inters)
  else e.host.getD []

/-- `node::set_hostname` (src/atbus_node.cpp 1351-1359): the result and the new buffer. -/
def set (hn : Text) (force : Bool) (buf : Text) : Bool × Text :=
  if force || buf.isEmpty then (true, hn) else (false, buf)

/-- What the programs of one process do with the buffer.  `init` is `node::init`, which keeps the name that it reads in
the endpoint of the node itself (src/atbus_node.cpp 208); `reg` is `msg_handler::send_reg`, which sends the name of this
moment (src/atbus_msg_handler.cpp 221). -/
inductive Op where
  | get (e : Env)
  | set (hn : Text) (force : Bool)
  | init (e : Env)
  | reg (e : Env)

/-- The process: the buffer (`static`, one for all nodes) and the name that the endpoint of a node has. -/
structure Proc where
  buf : Text := []
  self : Option Text := none
  /-- ghost: names that were read or sent -/
  seen : List Text := []

def Proc.step (dig : Fin 16 → Nat) (s : Proc) : Op → Proc
  | .get e => { s with buf := HostName.get dig e s.buf, seen := s.seen ++ [HostName.get dig e s.buf] }
  | .set hn force => { s with buf := (HostName.set hn force s.buf).2 }
  | .init e =>
    { s with buf := HostName.get dig e s.buf, self := some (HostName.get dig e s.buf),
             seen := s.seen ++ [HostName.get dig e s.buf] }
  | .reg e => { s with buf := HostName.get dig e s.buf, seen := s.seen ++ [HostName.get dig e s.buf] }

def Proc.run (dig : Fin 16 → Nat) (s : Proc) : List Op → Proc
  | [] => s
  | o :: os => Proc.run dig (s.step dig o) os

/-- The `n` bytes of an integer in memory, the least first. -/
def le : Nat → Nat → Text
  | 0, _ => []
  | n + 1, v => v % 256 :: le n (v / 256)

/-- `concatenation of all updates` for the interfaces: no separator (src/atbus_node.cpp 2175-2177). -/
def concat : List Text → Text
  | [] => []
  | t :: ts => t ++ concat ts

/-- The members of a node that its hash code depends on, and the memory address of the object. -/
structure Ident where
  pid : Nat
  addr : Nat
  id : Nat
  sec : Nat
  usec : Nat
deriving DecidableEq, Repr

/-- Everything that `init_hash_code` gives to SHA-256 (src/atbus_node.cpp 2142-2215); `pid` has four bytes, the others
eight. -/
def hashed (dig : Fin 16 → Nat) (is : List Inter) (hn : Text) (n : Ident) : Text :=
  concat (names dig is) ++ hn ++ (le 4 n.pid ++ le 8 n.addr ++ le 8 n.id ++ le 8 n.sec ++ le 8 n.usec)

/-- `endpoint::update_hash_code`: an empty code is ignored. -/
def updateHash (old new : Text) : Text := if new.isEmpty then old else new

end Verif.Node.HostName
