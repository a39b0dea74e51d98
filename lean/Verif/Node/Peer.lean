import Verif.Node.SelfQueue

/-!
Model of fault counting and of ping and pong: `src/atbus_node.cpp` (on_recv,
add_endpoint_fault, add_connection_fault, ping_endpoint, remove_endpoint),
`src/atbus_msg_handler.cpp` (on_recv_node_pong) and the counters of
`src/atbus_endpoint.cpp` and `src/atbus_connection.cpp`.

Endpoint objects are numbered; an endpoint object that is no longer registered
may still exist (the application can hold a `watch()` pointer), so operations on
it stay possible.  The route table and the parent are abstracted to a map from ids
to registered objects.  The fault counters are unbounded here (`size_t` in the
code).  The clock is a parameter of each operation.
-/
namespace Verif.Node.Peer

/-- The modelled part of `endpoint::stat_t`, `include/atbus_endpoint.h:258-270`. -/
structure Stat where
  fault : Nat := 0
  /-- `unfinished_ping` -/
  ping : Nat := 0
  delay : Int := 0
  lastPong : Int := 0
deriving DecidableEq, Repr

/-- What happens, in order. -/
inductive Ev where
  /-- endpoint object `r` is registered -/
  | added (r : Nat)
  /-- endpoint object `r` is removed; `cause`: the object whose fault caused it -/
  | removed (r : Nat) (cause : Option Nat)
  /-- a fault of endpoint `r` / a message of it handled without error -/
  | fault (r : Nat)
  | ok (r : Nat)
  | connFault (c : Nat)
  | connOk (c : Nat)
  /-- connection `c` is reset because of faults -/
  | connReset (c : Nat)
  /-- connection `c` is reset for another reason -/
  | connClosed (c : Nat)
  /-- a ping with this sequence number was sent to `r` -/
  | pinged (r seq : Nat)
  /-- a pong with this sequence number arrived on a connection bound to `r` -/
  | ponged (r seq : Nat)
  /-- `unfinished_ping` of `r` is written after `r` was removed inside the same call -/
  | stale (r : Nat)
deriving DecidableEq, Repr

/-- The members of `node`, `endpoint::stat_t` and `connection::stat_t` used. -/
structure S where
  /-- `conf_.fault_tolerant` -/
  tol : Nat
  /-- the node's own id -/
  own : Nat
  idOf : Nat → Nat
  reg : Nat → Option Nat := fun _ => none
  ep : Nat → Stat := fun _ => {}
  connFault : Nat → Nat := fun _ => 0
  /-- `msg_seq_alloc_` -/
  seq : Nat := 0
  log : List Ev := []

/-- Update of one entry (plumbing). -/
def upd {α : Type} (f : Nat → α) (i : Nat) (v : α) : Nat → α := fun j => if j = i then v else f j

/-- Appends to the history (ghost). -/
def S.emit (s : S) (e : Ev) : S := { s with log := s.log ++ [e] }

/-- `node::remove_endpoint(tid)`, `src/atbus_node.cpp:1126,2222-2259`. -/
def removeEndpoint (s : S) (id : Nat) (cause : Option Nat) : S :=
  if id = s.own then s
  else match s.reg id with
    | none => s
    | some r => { s with reg := upd s.reg id none }.emit (.removed r cause)

/-- `node::add_endpoint_fault`, `src/atbus_node.cpp:2082-2090`. -/
def addFault (s : S) (r : Nat) : S × Bool :=
  let k := (s.ep r).fault + 1
  let s := { s with ep := upd s.ep r { s.ep r with fault := k } }.emit (.fault r)
  if k > s.tol then (removeEndpoint s (s.idOf r) (some r), true) else (s, false)

/-- `node::add_connection_fault`, `src/atbus_node.cpp:2092-2100`; the reset clears the counters,
`src/atbus_connection.cpp:126-128`. -/
def addConnFault (s : S) (c : Nat) : S :=
  let k := s.connFault c + 1
  let s := { s with connFault := upd s.connFault c k }.emit (.connFault c)
  if k > s.tol then { s with connFault := upd s.connFault c 0 }.emit (.connReset c) else s

/-- `connection::reset` for another reason clears the counters as well, `src/atbus_connection.cpp:126-128`. -/
def closeConn (s : S) (c : Nat) : S := { s with connFault := upd s.connFault c 0 }.emit (.connClosed c)

/-- What arrives on a connection. -/
inductive In where
  /-- a channel error, or a message whose handler returns an error; `held`: should the endpoint be removed, the application
  still holds it -/
  | bad (held : Bool)
  /-- a message that is handled -/
  | good
  /-- a pong: sequence number, echoed time -/
  | pong (seq : Nat) (time : Int)
deriving DecidableEq, Repr

/-- `msg_handler::on_recv_node_pong`, `src/atbus_msg_handler.cpp:1178-1203`; `ms` is the node's clock in milliseconds,
`sec` in seconds. -/
def onPong (s : S) (binding : Option Nat) (seq : Nat) (time ms sec : Int) : S :=
  match binding with
  | none => s
  | some r =>
    let s := s.emit (.ponged r seq)
    if seq = (s.ep r).ping then { s with ep := upd s.ep r { s.ep r with ping := 0, delay := ms - time, lastPong := sec } } else s

/-- The counting part of `node::on_recv`, `src/atbus_node.cpp:1443-1455,1465-1474`.  An endpoint that is removed and
not held is destroyed, which resets its connections (`src/atbus_endpoint.cpp:183-231`). -/
def countBad (s : S) (c : Nat) (binding : Option Nat) (held : Bool) : S :=
  let s := match binding with
    | none => s
    | some r =>
      match addFault s r with
      | (s, gone) => if gone && !held then closeConn s c else s
  addConnFault s c

/-- `src/atbus_node.cpp:1479-1485`. -/
def countGood (s : S) (c : Nat) (binding : Option Nat) : S :=
  let s := match binding with
    | none => s
    | some r => { s with ep := upd s.ep r { s.ep r with fault := 0 } }.emit (.ok r)
  { s with connFault := upd s.connFault c 0 }.emit (.connOk c)

/-- `node::on_recv` for a message on connection `c`, `src/atbus_node.cpp:1439-1486`. -/
def onRecv (s : S) (c : Nat) (binding : Option Nat) (ms sec : Int) : In → S
  | .bad held => countBad s c binding held
  | .good => countGood s c binding
  | .pong seq time => countGood (onPong s binding seq time ms sec) c binding

/-- The end of `ping_endpoint`: `ep.set_stat_ping(ping_seq)`; `gone`: the endpoint was removed just before. -/
def setPing (s : S) (r : Nat) (gone : Bool) : S :=
  let s := { s with ep := upd s.ep r { s.ep r with ping := s.seq } }.emit (.pinged r s.seq)
  if gone then s.emit (.stale r) else s

/-- `node::ping_endpoint` from the test for a temporary node on, `src/atbus_node.cpp:1797-1824`.  `ctrl`: there is a
control connection; `sent`: `send_ping` succeeds; `data`: there is a data connection. -/
def sendPing (s : S) (r : Nat) (ctrl sent data : Bool) : S :=
  if s.own = 0 then s
  else if !ctrl then (addFault s r).1
  else
    let s := { s with seq := allocSeq s.seq }
    if !sent then (addFault s r).1
    else if !data then
      match addFault s r with
      | (s, gone) => setPing s r gone
    else setPing s r false

/-- `node::ping_endpoint`, `src/atbus_node.cpp:1785-1824`. -/
def ping (s : S) (r : Nat) (ctrl sent data : Bool) : S :=
  if (s.ep r).ping ≠ 0 then
    match addFault s r with
    | (s, gone) => if gone then s else sendPing s r ctrl sent data
  else sendPing s r ctrl sent data

/-- A call or an arriving message. -/
inductive Op where
  /-- a new endpoint object is registered with its id (`add_endpoint`) -/
  | register (r : Nat)
  /-- an endpoint is removed for another reason -/
  | unregister (id : Nat)
  | recv (c : Nat) (binding : Option Nat) (ms sec : Int) (m : In)
  | ping (r : Nat) (ctrl sent data : Bool)
  /-- a connection is reset for another reason -/
  | close (c : Nat)
  /-- another use of a sequence number -/
  | alloc
deriving Repr

/-- One event. -/
def step (s : S) : Op → S
  | .register r =>
    if s.idOf r ≠ s.own ∧ s.reg (s.idOf r) = none then
      { s with reg := upd s.reg (s.idOf r) (some r), ep := upd s.ep r {} }.emit (.added r)
    else s
  | .unregister id => removeEndpoint s id none
  | .recv c b ms sec m => onRecv s c b ms sec m
  | .ping r ctrl sent data => ping s r ctrl sent data
  | .close c => closeConn s c
  | .alloc => { s with seq := allocSeq s.seq }

/-- Runs the calls in order (plumbing). -/
def run (s : S) (ops : List Op) : S := ops.foldl step s

/-- A node without endpoints. -/
def init (tol own : Nat) (idOf : Nat → Nat) (seq : Nat) : S := { tol := tol, own := own, idOf := idOf, seq := seq }

end Verif.Node.Peer
