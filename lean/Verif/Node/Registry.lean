import Verif.Basic
import Verif.Subnet.Model

/-! The registry of a node and the registration handshake: `node::get_endpoint`, `add_endpoint`,
`remove_endpoint`, `disconnect`, `reset` (`src/atbus_node.cpp`), `check_access_hash`,
`generate_access_hash`, and `msg_handler::on_recv_node_reg_req`, `on_recv_node_reg_rsp`
(`src/atbus_msg_handler.cpp`).

Simplified:
* the hash of a token and a salt is an arbitrary function `H`; host names and hash codes are numbers;
* the connections a registration opens in turn (`src/atbus_msg_handler.cpp:925-990`) are the
  operation `link`;
* an endpoint that leaves the registry is destroyed at once, which closes its connections;
* allocation never fails and the node is initialised. -/

namespace Verif.Node.Registry

open Verif.Subnet

/-- What the code stores per endpoint object, `include/atbus_endpoint.h`. -/
structure Info where
  id : Nat
  pid : Int
  host : Nat
  hash : Nat
deriving DecidableEq, Repr

/-- `connection::binding_` and `connection::is_connected()`. -/
structure Cn where
  bound : Option Nat := none
  connected : Bool := false
deriving DecidableEq, Repr

/-- Callbacks and history. -/
inductive Ev where
  /-- `event_msg_.on_endpoint_added` -/
  | added (r : Nat)
  /-- `event_msg_.on_endpoint_removed` -/
  | removed (r : Nat)
  /-- ghost: a registration message for `id` from process `pid` on `host` bound connection `c` to the object `r` -/
  | joined (c r id : Nat) (pid : Int) (host : Nat)
deriving DecidableEq, Repr

/-- `access_data`, `include/libatbus_protocol.proto`. -/
structure Key where
  salt : Nat
  hash1 : Nat
  hash2 : Nat
deriving DecidableEq, Repr

/-- The members of `node` used, `include/atbus_node.h:690-760`. -/
structure S where
  /-- the node's own id and subnets -/
  own : Nat
  subs : List Rng
  minVersion : Nat := 0
  /-- `conf_.access_tokens` -/
  tokens : List Nat := []
  /-- `node_routes_` -/
  table : Table := []
  /-- `node_parent_.node_` -/
  parent : Option Ep := none
  /-- address of the next endpoint object -/
  next : Nat := 0
  info : Nat → Info := fun _ => { id := 0, pid := 0, host := 0, hash := 0 }
  conn : Nat → Cn := fun _ => {}
  log : List Ev := []

/-- Update of one entry (plumbing). -/
def upd {α : Type} (f : Nat → α) (k : Nat) (v : α) : Nat → α := fun x => if x = k then v else f x

/-- Appends to the history (ghost). -/
def emit (s : S) (e : Ev) : S := { s with log := s.log ++ [e] }

/-- `connection::reset`. -/
def resetConn (s : S) (c : Nat) : S := { s with conn := upd s.conn c {} }

/-- The end of an endpoint object: `endpoint::reset`, `src/atbus_endpoint.cpp:193-237`, closes its connections. -/
def drop (s : S) (r : Nat) : S :=
  { s with conn := fun c => if (s.conn c).bound = some r then {} else s.conn c }

/-- `node::is_parent_node`, `src/atbus_node.cpp:1244-1254`. -/
def isParent (s : S) (id : Nat) : Bool := decide (s.own ≠ 0) && s.parent.any fun p => p.id == id

/-- `node::get_endpoint`, `src/atbus_node.cpp:1046-1057`. -/
def getEndpoint (s : S) (id : Nat) : Option Ep :=
  if isParent s id then s.parent
  else match findRoute s.table id with
    | some e => if e.id = id then some e else none
    | none => none

/-- `node::remove_child` with its event, `src/atbus_node.cpp:2039-2066`. -/
def dropChild (s : S) (id : Nat) (expected : Option Nat) : S × Bool :=
  match lowerBound s.table id with
  | none => (s, false)
  | some e =>
    if (removeChild s.table id expected).2 then
      (drop (emit { s with table := (removeChild s.table id expected).1 } (.removed e.2.ref)) e.2.ref, true)
    else (s, false)

/-- `node::disconnect`, `src/atbus_node.cpp:795-822`. -/
def disconnect (s : S) (id : Nat) : S × Int :=
  match s.parent with
  | some p =>
    if id = p.id then (drop (emit { s with parent := none } (.removed p.ref)) p.ref, Err.SUCCESS)
    else child s
  | none => child s
where child (s : S) : S × Int :=
  match findRoute s.table id with
  | some e => if e.id = id then ((dropChild s id none).1, Err.SUCCESS) else (s, Err.ATNODE_NOT_FOUND)
  | none => (s, Err.ATNODE_NOT_FOUND)

/-- `node::remove_endpoint(tid, expected)`, `src/atbus_node.cpp:2222-2259`; the node's state and timers are
in the model of the life cycle. -/
def removeEndpoint (s : S) (id : Nat) (expected : Option Nat) : S × Int :=
  if isParent s id then
    match s.parent with
    | some p =>
      if expected.any (fun x => p.ref ≠ x) then (s, Err.ATNODE_NOT_FOUND)
      else (drop (emit { s with parent := none } (.removed p.ref)) p.ref, Err.SUCCESS)
    | none => (s, Err.ATNODE_NOT_FOUND)
  else if s.own = id then (s, Err.ATNODE_INVALID_ID)
  else if (dropChild s id expected).2 then ((dropChild s id expected).1, Err.SUCCESS)
  else (s, Err.ATNODE_NOT_FOUND)

/-- The calls of `disconnect` the application makes inside another callback. -/
def disconnects (s : S) (ids : List Nat) : S := ids.foldl (fun s id => (disconnect s id).1) s

/-- `node::add_endpoint`, `src/atbus_node.cpp:1063-1124`.  When the parent is added the node may become active,
`up` are the endpoints the application disconnects in the callback for that. -/
def addEndpoint (s : S) (ep : Ep) (up : List Nat) : S × Int :=
  if s.own ≠ 0 ∧ containList ep.subnets s.subs = true then
    match s.parent with
    | none => (emit (disconnects { s with parent := some ep } up) (.added ep.ref), Err.SUCCESS)
    | some _ => (s, Err.ATNODE_INVALID_ID)
  else if s.own ≠ 0 ∧ isChildNode s.own s.subs ep.id = true ∧ containList s.subs ep.subnets = false then
    (s, Err.ATNODE_MASK_CONFLICT)
  else if (insertChild s.table ep).2 then
    (emit { s with table := (insertChild s.table ep).1 } (.added ep.ref), Err.SUCCESS)
  else (s, Err.ATNODE_MASK_CONFLICT)

/-- `node::remove_collection`, `src/atbus_node.cpp:2068-2080`: one event per entry of the table. -/
def removeCollection (s : S) : S :=
  s.table.foldl (fun s e => drop (emit s (.removed e.2.ref)) e.2.ref) { s with table := [] }

/-- The registry part of `node::reset`, `src/atbus_node.cpp:303-309`; `mid` are the endpoints the application
disconnects in the callback for the parent. -/
def reset (s : S) (mid : List Nat) : S :=
  match s.parent with
  | some p => removeCollection (disconnects (removeEndpoint s p.id none).1 mid)
  | none => removeCollection s

/-- `endpoint::add_connection`, `src/atbus_endpoint.cpp:287-317`. -/
def addConnection (s : S) (c r : Nat) : S × Bool :=
  match (s.conn c).bound with
  | some r' => (s, decide (r' = r))
  | none => ({ s with conn := upd s.conn c { bound := some r, connected := true } }, true)

/-! ### Access data -/

/-- `node::check_access_hash`, `src/atbus_node.cpp:1162-1178`. -/
def checkHash (H : Nat → Nat → Nat × Nat) (tokens : List Nat) (k : Key) : Bool :=
  if tokens = [] then k.hash1 == 0 && k.hash2 == 0
  else tokens.any fun t => H t k.salt == (k.hash1, k.hash2)

/-- `src/atbus_msg_handler.cpp:762-769` and `:1031-1038`. -/
def access (H : Nat → Nat → Nat × Nat) (tokens : List Nat) (keys : List Key) : Bool :=
  if tokens ≠ [] ∨ keys ≠ [] then keys.any (checkHash H tokens) else true

/-- The keys `send_reg` puts into a message, `src/atbus_msg_handler.cpp:203-217`, with
`generate_access_hash`, `src/atbus_node.cpp:1145-1160`: one per token, each with a random salt. -/
def keysOf (H : Nat → Nat → Nat × Nat) (tokens : List Nat) (salt : Nat → Nat) : List Key :=
  tokens.zipIdx.map fun x => { salt := salt x.2, hash1 := (H x.1 (salt x.2)).1, hash2 := (H x.1 (salt x.2)).2 }

/-! ### Registration -/

/-- A registration request and the circumstances of its arrival. -/
structure Req where
  conn : Nat
  version : Nat := 0
  keys : List Key := []
  busId : Nat
  pid : Int := 0
  host : Nat := 0
  hash : Nat := 0
  confs : List (Nat × Nat) := []
  /-- `connection::flag_t::REG_FD` -/
  fd : Bool := true
  /-- the connection's address is the configured parent address -/
  atParent : Bool := false
  /-- sending the response worked -/
  sent : Bool := true
  /-- see `addEndpoint` -/
  up : List Nat := []

/-- One of the claimed subnets contains the id, `src/atbus_msg_handler.cpp:838-845`. -/
def containsSelf (id : Nat) : List (Nat × Nat) → Option Bool
  | [] => some false
  | (p, m) :: cs =>
    match containConf p m id, containsSelf id cs with
    | some a, some b => some (a || b)
    | _, _ => none

/-- `ep_subnets`, `src/atbus_msg_handler.cpp:833-851`. -/
def epConfs (id : Nat) (confs : List (Nat × Nat)) : Option (List (Nat × Nat)) :=
  match containsSelf id confs with
  | none => none
  | some true => some confs
  | some false => some (confs ++ [(id, 0)])

/-- An unknown id, `src/atbus_msg_handler.cpp:830-916`; `none` is undefined behaviour in the subnet arithmetic. -/
def regNew (s : S) (m : Req) : Option (S × Int) :=
  match epConfs m.busId m.confs with
  | none => none
  | some confs =>
    if isChildNode s.own s.subs m.busId = true ∧ containConfs s.subs confs = false then some (s, Err.ATNODE_MASK_CONFLICT)
    else match createSubnets m.busId confs with
      | none => none
      | some l =>
        let r := s.next
        let s1 : S := { s with next := r + 1, info := upd s.info r { id := m.busId, pid := m.pid, host := m.host, hash := m.hash } }
        if m.atParent = true ∧ containList l s.subs = false then some (resetConn s1 m.conn, Err.ATNODE_MASK_CONFLICT)
        else
          let a := addEndpoint s1 ⟨r, m.busId, l⟩ m.up
          if a.2 < 0 then some a
          else
            let b := addConnection a.1 m.conn r
            some (if b.2 then emit b.1 (.joined m.conn r m.busId m.pid m.host) else b.1, Err.SUCCESS)

/-- `endpoint::update_hash_code`, `src/atbus_endpoint.cpp:239-245`; 0 stands for the empty string. -/
def setHash (s : S) (r h : Nat) : S :=
  if h = 0 then s else { s with info := upd s.info r { s.info r with hash := h } }

/-- A known id, `src/atbus_msg_handler.cpp:812-828`. -/
def regOld (s : S) (m : Req) (ep : Ep) : S × Int :=
  if s.own ≠ 0 ∧ ((s.info ep.ref).pid ≠ m.pid ∨ (s.info ep.ref).host ≠ m.host) then
    (setHash s ep.ref m.hash, Err.ATNODE_ID_CONFLICT)
  else
    let b := addConnection s m.conn ep.ref
    if b.2 then (setHash (emit b.1 (.joined m.conn ep.ref m.busId m.pid m.host)) ep.ref m.hash, Err.SUCCESS)
    else (setHash b.1 ep.ref m.hash, Err.ATNODE_NO_CONNECTION)

/-- A connection that is established already, `src/atbus_msg_handler.cpp:789-801`. -/
def regConnected (s : S) (m : Req) : S × Int :=
  match (s.conn m.conn).bound with
  | some r =>
    if (s.info r).id = m.busId then (setHash s r m.hash, Err.SUCCESS)
    else (resetConn s m.conn, Err.ATNODE_BUS_ID_NOT_MATCH)
  | none => (resetConn s m.conn, Err.ATNODE_BUS_ID_NOT_MATCH)

/-- The `do … while (false)` block, `src/atbus_msg_handler.cpp:787-991`. -/
def regBody (s : S) (m : Req) : Option (S × Int) :=
  if (s.conn m.conn).connected then some (regConnected s m)
  else if m.busId = 0 then some (s, Err.SUCCESS)
  else match getEndpoint s m.busId with
    | some ep => some (regOld s m ep)
    | none => regNew s m

/-- `on_recv_node_reg_req`, `src/atbus_msg_handler.cpp:724-1003`: the new state and the result in the response. -/
def regReq (H : Nat → Nat → Nat × Nat) (s : S) (m : Req) : Option (S × Int) :=
  if m.version < s.minVersion then
    some (if m.sent then s else resetConn s m.conn, Err.UNSUPPORTED_VERSION)
  else if access H s.tokens m.keys = false then
    some (if m.sent then s else resetConn s m.conn, Err.ACCESS_DENY)
  else match regBody s m with
    | none => none
    | some (s', code) => some (if m.fd = true ∧ code < 0 then resetConn s' m.conn else s', code)

/-- `on_recv_node_reg_rsp`, `src/atbus_msg_handler.cpp:1005-1091`, for result `ret` of the peer: the connection
is reset or stays (`n.on_parent_reg_done` is in the model of the life cycle).  Returns whether it was accepted. -/
def regRsp (H : Nat → Nat → Nat × Nat) (s : S) (c : Nat) (keys : List Key) (ret : Int) : S × Bool :=
  if access H s.tokens keys = false ∨ ret < 0 then (resetConn s c, false) else (s, true)

/-- An arriving message or a call. -/
inductive Op where
  | reg (m : Req)
  | rsp (c : Nat) (keys : List Key) (ret : Int)
  | remove (id : Nat) (expected : Option Nat)
  | disconnect (id : Nat)
  | reset (mid : List Nat)
  /-- a connection opened to a known endpoint, `node::connect(addr, ep)`, `src/atbus_node.cpp:746-793`, is established -/
  | link (c r : Nat)
  | close (c : Nat)

/-- One event; `none` where the code is undefined. -/
def step (H : Nat → Nat → Nat × Nat) (s : S) : Op → Option S
  | .reg m => (regReq H s m).map Prod.fst
  | .rsp c keys ret => some (regRsp H s c keys ret).1
  | .remove id x => some (removeEndpoint s id x).1
  | .disconnect id => some (disconnect s id).1
  | .reset mid => some (reset s mid)
  | .link c r => some (addConnection s c r).1
  | .close c => some (resetConn s c)

/-- Runs the calls in order (plumbing). -/
def run (H : Nat → Nat → Nat × Nat) (s : S) : List Op → Option S
  | [] => some s
  | op :: ops => (step H s op).bind fun s => run H s ops

/-- A node without endpoints. -/
def init (own : Nat) (subs : List Rng) (minVersion : Nat) (tokens : List Nat) : S :=
  { own := own, subs := subs, minVersion := minVersion, tokens := tokens }

end Verif.Node.Registry
