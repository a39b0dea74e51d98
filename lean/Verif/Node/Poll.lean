import Verif.Basic

/-!
Model of the polling of memory and shared memory channels: the loop over `proc_connections_` in `node::proc`
(`src/atbus_node.cpp:414-420`), `connection::proc`, `mem_proc_fn` and `shm_proc_fn`, with the changes of the table that handlers of
messages make while the loop holds an iterator.

A connection object is a number.  The table is the list of its connections in the order of iteration (a hash table or a tree,
`include/atbus_endpoint.h:40`); the place where a new entry appears and whether the table is rehashed are chosen by the environment, and so
is what each call of `mem_recv`/`shm_recv` gives and what the handler of a message does.
-/
namespace Verif.Node.Poll

/-- `node::conf_t::fault_tolerant` and `loop_times`. -/
structure Conf where
  tol : Nat
  loop : Nat

/-- The part of a listening `connection` used here. -/
structure Conn where
  /-- the text of the address (a number for each text) -/
  key : Nat := 0
  /-- state CONNECTED -/
  up : Bool := false
  /-- flag REG_PROC -/
  reg : Bool := false
  /-- `stat_.fault_count` -/
  fault : Nat := 0
deriving DecidableEq, Repr

/-- `proc_connections_` (`include/atbus_node.h`), the connections, and the position of the loop of `node::proc`. -/
structure S where
  conn : Nat → Conn := fun _ => {}
  /-- number of connection objects made so far -/
  n : Nat := 0
  /-- `proc_connections_` -/
  table : List Nat := []
  /-- the connection the iterator of the loop in `node::proc` points at -/
  at_ : Option Nat := none
  /-- the table was rehashed since the loop began: its iterator is invalid -/
  stale : Bool := false
  /-- undefined behaviour: an invalid iterator was used -/
  ub : Bool := false
  /-- ghost: connections polled in this (or the last) loop, latest first -/
  polled : List Nat := []
  /-- ghost: `add_proc_connection` refused an address that was in the table -/
  dup : Bool := false

/-- Update of one entry (plumbing). -/
def S.set (s : S) (c : Nat) (k : Conn) : S := { s with conn := fun x => if x = c then k else s.conn x }

/-- `connection::reset`, `src/atbus_connection.cpp:97-129`, with `disconnect`, `:379-411`, and `node::remove_proc_connection`,
`src/atbus_node.cpp:1390-1398`: the entry is found by the text of the address. -/
def close (s : S) (c : Nat) : S :=
  let k := s.conn c
  let s := if k.up && k.reg then { s with table := s.table.filter fun x => (s.conn x).key != k.key } else s
  s.set c { k with up := false, reg := false, fault := 0 }

/-- `node::listen`, `src/atbus_node.cpp:674-704`, of a memory or shared memory address: `connection::listen`,
`src/atbus_connection.cpp:143-216`, with `node::add_proc_connection`, `src/atbus_node.cpp:1376-1388`, whose result is not looked at. -/
def listen (s : S) (key pos : Nat) (rehash : Bool) : S :=
  let c := s.n
  let here := s.table.any fun x => (s.conn x).key == key
  let s := if here then { s with dup := true }
    else { s with table := s.table.take pos ++ c :: s.table.drop pos, stale := s.stale || rehash }
  { s.set c { key := key, up := true, reg := true } with n := s.n + 1 }

/-- What a handler of a message (or the application) does to the listening connections. -/
inductive Act where
  | close (c : Nat)
  | listen (key pos : Nat) (rehash : Bool)
deriving DecidableEq, Repr

/-- What a callback does to the table. -/
def act (s : S) : Act → S
  | .close c => if c < s.n then close s c else s
  | .listen key pos rehash => listen s key pos rehash

/-- `node::add_connection_fault`, `src/atbus_node.cpp:2092-2100`. -/
def addFault (cf : Conf) (s : S) (c : Nat) : S :=
  let f := (s.conn c).fault + 1
  let s := s.set c { s.conn c with fault := f }
  if f > cf.tol then close s c else s

/-- What a call of `mem_recv` or `shm_recv` gives. -/
inductive Rcv where
  /-- EN_ATBUS_ERR_NO_DATA -/
  | none
  /-- another error -/
  | fail
  /-- bytes that `unpack` refuses -/
  | garbage
  /-- a message; its handler acts and ends well or with an error -/
  | msg (acts : List Act) (ok : Bool)
deriving DecidableEq, Repr

/-- The loop of `mem_proc_fn` and `shm_proc_fn`, `src/atbus_connection.cpp:783-822`, `:722-768`, with `node::on_recv`,
`src/atbus_node.cpp:1439-1485`.  A closed connection has no channel any more and the receive functions answer
EN_ATBUS_ERR_PARAMS (`src/channel_mem.cpp:670`). -/
def recvLoop (cf : Conf) (c : Nat) : Nat → List Rcv → S → S
  | 0, _, s => s
  | k + 1, rs, s =>
    if (s.conn c).up = false then addFault cf s c
    else
      match rs with
      | [] => s
      | .none :: _ => s
      | .fail :: _ => addFault cf s c
      | .garbage :: rs => recvLoop cf c k rs s
      | .msg acts ok :: rs =>
        let s := acts.foldl act s
        let s := if ok then s.set c { s.conn c with fault := 0 } else addFault cf s c
        recvLoop cf c k rs s

/-- `connection::proc`, `src/atbus_connection.cpp:131-141`. -/
def proc (cf : Conf) (s : S) (c : Nat) (rs : List Rcv) : S :=
  let s := { s with polled := c :: s.polled }
  if (s.conn c).up then recvLoop cf c cf.loop rs s else s

/-- `++iter`, `src/atbus_node.cpp:417`. -/
def advance (s : S) (c : Nat) : S :=
  if s.stale || !s.table.contains c then { s with ub := true, at_ := none }
  else { s with at_ := (s.table.dropWhile (· != c)).tail.head? }

/-- A call from outside the loop, or one pass of the loop of `node::proc`. -/
inductive Op where
  /-- the loop begins -/
  | begin_
  /-- the connection under the iterator is polled and the iterator advanced -/
  | poll (rs : List Rcv)
  /-- a change outside the loop -/
  | act (a : Act)
deriving DecidableEq, Repr

/-- One event. -/
def step (cf : Conf) (s : S) : Op → S
  | .begin_ => if s.ub || s.at_.isSome then s else { s with at_ := s.table.head?, stale := false, polled := [] }
  | .poll rs =>
    match s.at_ with
    | none => s
    | some c => advance (proc cf s c rs) c
  | .act a => if s.at_.isSome then s else act s a

/-- Runs the calls in order (plumbing). -/
def run (cf : Conf) (s : S) (ops : List Op) : S := ops.foldl (step cf) s

end Verif.Node.Poll
