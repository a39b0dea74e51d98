import Verif.Basic

/-!
Model of the life of endpoint objects: registration, loss of connections, `pending_endpoint_gc_list`, and the
collection at the end of `node::proc` and `node::poll` (`src/atbus_node.cpp:578-597,639-658`).

`endpoint::reset` and `connection::reset` are one step each here (their inner order is the subject of
`Verif/Endpoint/Model.lean`).  The collection is made of steps, and any other step may happen between them: code of
the application runs there (`on_endpoint_removed`, the log, and `poll`, which may be called from a callback of
`proc`).  An object is destroyed as soon as nothing holds it (`sweep`).
-/
namespace Verif.Node.Collect

/-- The members of `endpoint` used, `include/atbus_endpoint.h:98-290`. -/
structure Ep where
  id : Nat := 0
  /-- `ctrl_conn_`, `data_conn_` -/
  ctrl : Option Nat := none
  data : List Nat := []
  /-- HAS_PING_TIMER -/
  timer : Bool := false
  /-- ghost: it got a control connection after it was registered -/
  back : Bool := false
deriving DecidableEq, Repr

/-- The members of `connection` used: `is_running()` and `binding_`, `src/atbus_connection.cpp:447,464-466`. -/
structure Conn where
  live : Bool := false
  bound : Option Nat := none
deriving DecidableEq, Repr

/-- The members of `node` used, `include/atbus_node.h:722-750`; endpoint object 0 is `self_`. -/
structure S where
  /-- the node's id -/
  own : Nat
  /-- `conf_.ping_interval > 0` -/
  ping : Bool
  ep : Nat → Ep
  conn : Nat → Conn := fun _ => {}
  /-- number of the next endpoint object -/
  next : Nat := 1
  /-- `node_parent_.node_`, the endpoints in `node_routes_` -/
  parent : Option Nat := none
  routes : List Nat := []
  /-- `pending_endpoint_gc_list` -/
  gc : List Nat := []
  /-- EN_FT_IN_GC_ENDPOINTS -/
  inGc : Bool := false
  /-- `checked`; the part not yet reached; the endpoint that was reset and is about to be removed -/
  held : List Nat := []
  rest : List Nat := []
  cur : Option Nat := none
  /-- ghost: a registered endpoint was reset by something else during a collection, and is not itself to be collected by it -/
  late : Bool := false
  /-- ghost: a listener failed or was closed, or the node's own endpoint was put into the list -/
  fell : Bool := false
  /-- ghost: connections that began to listen -/
  listened : List Nat := []

/-- The node after `init` and `start`. -/
def init (own : Nat) (ping : Bool) : S := { own, ping, ep := fun r => if r = 0 then { id := own } else {} }

/-- Is the endpoint object registered? -/
def S.reg (s : S) (r : Nat) : Bool := s.parent == some r || s.routes.contains r

/-- Does a `shared_ptr` to the object exist? -/
def S.kept (s : S) (r : Nat) : Bool := r == 0 || s.reg r || s.gc.contains r || s.held.contains r

/-- `endpoint::~endpoint`, `src/atbus_endpoint.cpp:183-191`, of the objects nothing holds: their connections are closed. -/
def sweep (s : S) : S :=
  { s with
    conn := fun c => match (s.conn c).bound with
      | some r => if s.kept r then s.conn c else {}
      | none => s.conn c
    ep := fun r => if s.kept r then s.ep r else { id := (s.ep r).id } }

/-- Update of one entry (plumbing). -/
def S.setEp (s : S) (r : Nat) (e : Ep) : S := { s with ep := fun x => if x = r then e else s.ep x }

/-- Update of one entry (plumbing). -/
def S.setConn (s : S) (c : Nat) (k : Conn) : S := { s with conn := fun x => if x = c then k else s.conn x }

/-- `endpoint::is_available`, `src/atbus_endpoint.cpp:359-371`. -/
def S.avail (s : S) (r : Nat) : Bool := (s.ep r).ctrl.isSome && (s.ep r).data.any fun c => (s.conn c).live

/-- `node::add_endpoint_gc_list`, `src/atbus_node.cpp:1848-1858`. -/
def gcAdd (s : S) (r : Nat) : S := if s.inGc then s else { s with gc := s.gc ++ [r] }

/-- What `endpoint::reset` does to the endpoint and its connections, `src/atbus_endpoint.cpp:201-221`. -/
def clear (s : S) (r : Nat) : S :=
  { s with
    conn := fun c => if (s.ep r).ctrl = some c ∨ c ∈ (s.ep r).data then {} else s.conn c
    ep := fun x => if x = r then { s.ep r with ctrl := none, data := [], timer := false } else s.ep x }

/-- `endpoint::reset`, `src/atbus_endpoint.cpp:193-228`. -/
def resetEp (s : S) (r : Nat) : S :=
  gcAdd { clear s r with late := s.late || (s.inGc && s.reg r && !s.rest.contains r && s.cur != some r) } r

/-- `endpoint::add_connection`, `src/atbus_endpoint.cpp:287-317`, of an unbound connection. -/
def addConn (s : S) (r c : Nat) (force : Bool) : S :=
  (s.setConn c { s.conn c with bound := some r }).setEp r
    (if force || (s.ep r).ctrl.isSome then { s.ep r with data := (s.ep r).data ++ [c] }
      else { s.ep r with ctrl := some c, back := (s.ep r).back || s.reg r })

/-- `connection::reset`, `src/atbus_connection.cpp:97-131`, with `endpoint::remove_connection`,
`src/atbus_endpoint.cpp:319-357`. -/
def lose (s : S) (c : Nat) : S :=
  match (s.conn c).bound with
  | none => s.setConn c {}
  | some r =>
    if (s.ep r).ctrl = some c then resetEp s r
    else
      let s := (s.setConn c {}).setEp r { s.ep r with data := (s.ep r).data.erase c }
      if (s.ep r).data = [] then resetEp s r else s

/-- `is_parent_node`, `src/atbus_node.cpp:1244-1254`. -/
def S.isParent (s : S) (id : Nat) : Bool :=
  decide (s.own ≠ 0) && match s.parent with
    | some p => (s.ep p).id == id
    | none => false

/-- `node::get_endpoint`, `src/atbus_node.cpp:1046-1057`; that the table finds exactly the registered id is C92. -/
def S.find (s : S) (id : Nat) : Option Nat :=
  if s.isParent id then s.parent else s.routes.find? fun r => (s.ep r).id == id

/-- `node::remove_endpoint(tid, expected)`, `src/atbus_node.cpp:2222-2259`, with `remove_child`, 2039-2066. -/
def removeEndpoint (s : S) (id : Nat) (expected : Option Nat) : S :=
  if s.isParent id then
    if expected.isSome ∧ s.parent ≠ expected then s else { s with parent := none }
  else if id = s.own then s
  else match s.routes.find? fun r => (s.ep r).id == id with
    | none => s
    | some r => if expected.isSome ∧ some r ≠ expected then s else { s with routes := s.routes.erase r }

/-- `node::disconnect`, `src/atbus_node.cpp:793-823`. -/
def disconnect (s : S) (id : Nat) : S :=
  match s.parent.filter fun p => (s.ep p).id == id with
  | some p => resetEp { s with parent := none } p
  | none =>
    match s.routes.find? fun r => (s.ep r).id == id with
    | some r => resetEp { s with routes := s.routes.erase r } r
    | none => s

/-- The registration of a peer on an unbound connection, `src/atbus_msg_handler.cpp:815-833,868-917`: it joins the
endpoint with that id, or a new one is created, as the parent if its subnets contain the node's.  (Refusals are
`lose`.) -/
def register (s : S) (c id : Nat) (asParent force : Bool) : S :=
  match s.find id with
  | some r => addConn s r c force
  | none =>
    let r := s.next
    let add (s : S) : S := { (s.setConn c { s.conn c with bound := some r }).setEp r
      { id := id, ctrl := some c, timer := s.ping && id != s.own } with next := r + 1 }
    if asParent ∧ s.own ≠ 0 then
      if s.parent.isSome then s.setConn c {} else add { s with parent := some r }
    else add { s with routes := s.routes ++ [r] }

/-- What can happen. -/
inductive Op where
  /-- a stream connection is accepted or begins to connect -/
  | opened (c : Nat)
  /-- `connection::disconnect` by the application -/
  | down (c : Nat)
  /-- `connection::reset`: failure, timeout, closing by the peer, application -/
  | lose (c : Nat)
  /-- a peer registers on the connection -/
  | register (c id : Nat) (asParent force : Bool)
  /-- `node::connect(addr, ep)`, `src/atbus_node.cpp:746-790` -/
  | connect (c r : Nat) (force : Bool)
  /-- `node::listen`, `src/atbus_node.cpp:673-703` -/
  | listen (c : Nat)
  /-- the other calls of `add_endpoint_gc_list`: no usable channel, refused by the peer, late (`src/atbus_node.cpp:482,517`,
  `src/atbus_msg_handler.cpp:986,1048`) -/
  | suspect (r : Nat)
  /-- `endpoint::add_ping_timer`, `src/atbus_endpoint.cpp:418-432`, after a ping -/
  | retime (r : Nat)
  /-- `node::disconnect`, `node::remove_endpoint` -/
  | disconnect (id : Nat)
  | remove (id : Nat)
  /-- the collection: `src/atbus_node.cpp:579-582`, one entry up to its reset, 584-588, its removal, 589, the end, 594-597 -/
  | begin
  | check
  | removal
  | finish
deriving DecidableEq, Repr

/-- One step before the objects without holder are destroyed. -/
def act (s : S) : Op → S
  | .opened c => if s.conn c = {} then s.setConn c { live := true } else s
  | .down c => { s.setConn c { s.conn c with live := false } with fell := s.fell || (s.conn c).bound == some 0 }
  | .lose c => lose { s with fell := s.fell || (s.conn c).bound == some 0 } c
  | .register c id p f => if (s.conn c).live = true ∧ (s.conn c).bound = none then register s c id p f else s
  | .connect c r f => if s.conn c = {} ∧ s.kept r = true then addConn (s.setConn c { live := true }) r c f else s
  | .listen c =>
    if s.conn c = {} then { addConn (s.setConn c { live := true }) 0 c false with listened := c :: s.listened } else s
  | .suspect r => if s.kept r then gcAdd { s with fell := s.fell || r == 0 } r else s
  | .retime r => if s.kept r && s.ping && (s.ep r).id != s.own then s.setEp r { s.ep r with timer := true } else s
  | .disconnect id => disconnect s id
  | .remove id => removeEndpoint s id none
  | .begin => if s.inGc = false ∧ s.gc ≠ [] then { s with inGc := true, held := s.gc, rest := s.gc, gc := [] } else s
  | .check =>
    match s.inGc, s.cur, s.rest with
    | true, none, r :: t => if s.avail r then { s with rest := t } else { clear s r with rest := t, cur := some r }
    | _, _, _ => s
  | .removal =>
    match s.cur with
    | some r => { removeEndpoint s (s.ep r).id (some r) with cur := none }
    | none => s
  | .finish => if s.inGc = true ∧ s.rest = [] ∧ s.cur = none then { s with inGc := false, held := [], gc := [] } else s

/-- One step. -/
def step (s : S) (op : Op) : S := sweep (act s op)

/-- Runs the steps in order (plumbing). -/
def run (s : S) (ops : List Op) : S := ops.foldl step s

/-- A collection of `n` entries in which no code of the application runs. -/
def collection (n : Nat) : List Op := .begin :: (List.replicate n [Op.check, Op.removal]).flatten ++ [.finish]

end Verif.Node.Collect
