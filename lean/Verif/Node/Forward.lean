import Verif.Subnet.Model

/-!
Model of the next hop decision (`src/atbus_node.cpp`) and of the handling of
data messages (`src/atbus_msg_handler.cpp`).

One node is described by what these functions read: its id and subnets, the
parent and the route table, and for each endpoint the connection that
`get_data_connection` / `get_ctrl_connection` choose (property C47).  Writing to
a connection is an arbitrary function `push` with the result of
`msg_handler::send_msg` (negative: nothing was accepted for transmission).
Messages are decoded protobuf messages; the payload is an opaque list.  A
handler returns its effects in order and its result code.
-/
namespace Verif.Node

open Verif.Subnet (Rng Ep Table findRoute)

/-- `forward_data` with its `msg_head`, `include/libatbus_protocol.proto:32-38,79-85`.  `rsp`: the body is `data_transform_rsp`.
`needRsp` is the flag FORWARD_DATA_FLAG_REQUIRE_RSP. -/
structure Msg where
  rsp : Bool := false
  version : Int := 2
  src : Nat := 0
  ret : Int := 0
  seq : Nat := 0
  from_ : Nat := 0
  to : Nat := 0
  router : List Nat := []
  needRsp : Bool := false
  content : List Nat := []
deriving DecidableEq, Repr

/-- What the functions read of a node. -/
structure Node where
  id : Nat
  subnets : List Rng := []
  parent : Option Ep := none
  routes : Table := []
  /-- reference of the node's own endpoint -/
  selfRef : Nat := 0
  created : Bool := false
  ttl : Int := 16
  minVersion : Int := 2
  dataConn : Nat → Option Nat
  ctrlConn : Nat → Option Nat
  push : Nat → Msg → Int
  /-- endpoint flag HAS_LISTEN_FD -/
  listenFd : Nat → Bool := fun _ => false
  /-- result of `send_node_connect_sync`, which sends another kind of message -/
  sync : Nat → Nat → Int := fun _ _ => 0

/-- An effect of a handler. -/
inductive Eff where
  /-- callback `on_recv_msg` -/
  | deliver (m : Msg)
  /-- callback `on_forward_response` -/
  | response (m : Msg)
  /-- message accepted by connection `c` of endpoint `e` -/
  | sent (e : Ep) (c : Nat) (m : Msg)
  /-- message refused by connection `c` of endpoint `e` -/
  | refused (e : Ep) (c : Nat) (m : Msg)
  /-- message queued for the node itself -/
  | toSelf (m : Msg)
  /-- a request to connect directly, sent to the node `id` -/
  | sync (id : Nat) (e : Ep)
deriving DecidableEq, Repr

/-- `node::is_child_node`, `src/atbus_node.cpp:1236-1242`. -/
def Node.isChild (n : Node) (id : Nat) : Bool := Subnet.isChildNode n.id n.subnets id

/-- `node::is_parent_node`, `src/atbus_node.cpp:1244-1254`. -/
def Node.isParent (n : Node) (id : Nat) : Bool :=
  if n.id = 0 then false
  else match n.parent with
    | none => false
    | some p => decide (id = p.id)

/-- The end of `get_remote_channel`, `src/atbus_node.cpp:1034-1043`; `out` is what was assigned to `*ep_out`. -/
def finishChannel (target out : Option Ep) (conn : Option Nat) : Int × Option Ep × Option Nat :=
  match target with
  | none => (Err.ATNODE_INVALID_ID, out, conn)
  | some _ =>
    match conn with
    | none => (Err.ATNODE_NO_CONNECTION, out, conn)
    | some _ => (Err.SUCCESS, out, conn)

/-- The assignments of `target` and `conn` followed by `break`. -/
def useChannel (fn : Nat → Option Nat) (e : Ep) : Int × Option Ep × Option Nat := finishChannel (some e) (some e) (fn e.ref)

/-- `find_route` followed by `target->is_child_node(tid)`, `src/atbus_node.cpp:1004-1005`. -/
def directChild (n : Node) (tid : Nat) : Option Ep :=
  match findRoute n.routes tid with
  | none => none
  | some e => if Subnet.isChildNode e.id e.subnets tid then some e else none

/-- `node::get_remote_channel`, `src/atbus_node.cpp:971-1044` (the node has its own endpoint): result code, endpoint and
connection written to the output pointers. -/
def remoteChannel (n : Node) (fn : Nat → Option Nat) (tid : Nat) : Int × Option Ep × Option Nat :=
  if n.created then (Err.NOT_INITED, none, none)
  else if tid = n.id then (Err.ATNODE_INVALID_ID, none, none)
  else
    match (if n.isParent tid then n.parent else none) with
    | some p => useChannel fn p
    | none =>
      match directChild n tid with
      | some e => useChannel fn e
      | none =>
        if n.isChild tid then (Err.ATNODE_INVALID_ID, none, none)
        else match n.parent with
          | some p => useChannel fn p
          | none => finishChannel (findRoute n.routes tid) none none

/-- `node::send_msg`, `src/atbus_node.cpp:2273-2356`, for data messages (they have a head and a body). -/
def sendMsg (n : Node) (fn : Nat → Option Nat) (tid : Nat) (m : Msg) : List Eff × Int :=
  if n.created then ([], Err.NOT_INITED)
  else if tid = n.id then ([.toSelf m], Err.SUCCESS)
  else
    match remoteChannel n fn tid with
    | (res, some e, some c) =>
      if res < 0 then ([], res)
      else
        let r := n.push c m
        if r < 0 then ([.refused e c m], r) else ([.sent e c m], r)
    | (res, _, _) => if res < 0 then ([], res) else ([], Err.ATNODE_NO_CONNECTION)

/-- `forward_data_message`, `src/atbus_msg_handler.cpp:29-69`: effects, result, endpoint found, message afterwards. -/
def forwardData (n : Node) (m : Msg) (fromId toId : Nat) : List Eff × Int × Option Ep × Msg :=
  if toId = 0 then ([], Err.PARAMS, none, m)
  else if n.id = toId then ([], Err.PARAMS, none, m)
  else
    match remoteChannel n n.dataConn toId with
    | (_, some e, some c) =>
      if fromId ≠ 0 ∧ e.id = fromId then ([], Err.ATNODE_SRC_DST_IS_SAME, some e, m)
      else
        let m := { m with src := n.id }
        let r := n.push c m
        (if r < 0 then [.refused e c m] else [.sent e c m], r, some e, m)
    | (res, e, _) => ([], res, e, m)

/-- `msg_handler::send_transfer_rsp`, `src/atbus_msg_handler.cpp:247-287`. -/
def transferRspMsg (n : Node) (m : Msg) (code : Int) : Msg :=
  { m with
    rsp := true
    ret := code
    src := n.id
    from_ := m.to
    to := m.from_
    router := if m.router.getLast? = some n.id then m.router else m.router ++ [n.id] }

/-- The call of `send_ctrl_msg` at the end of `send_transfer_rsp`, `src/atbus_msg_handler.cpp:279-287`. -/
def sendTransferRsp (n : Node) (m : Msg) (code : Int) : List Eff × Int :=
  sendMsg n n.ctrlConn m.from_ (transferRspMsg n m code)

/-- The size comparison `router_size >= static_cast<size_t>(ttl)`: a negative `ttl` becomes a huge number. -/
def ttlReached (n : Node) (m : Msg) : Bool := decide (m.router.length ≥ (n.ttl % (W64 : Int)).toNat)

/-- `NULL == to_ep || false == n.is_parent_node(to_ep->get_id())`, `src/atbus_msg_handler.cpp:510`. -/
def notParent (n : Node) (toEp : Option Ep) : Bool :=
  match toEp with
  | none => true
  | some e => !n.isParent e.id

/-- The forwarding part of `on_recv_data_transfer_req`, `src/atbus_msg_handler.cpp:478-524`. -/
def forwardReq (n : Node) (m0 : Msg) : List Eff × Int :=
  let direct := m0.src
  let m1 := { m0 with router := m0.router ++ [n.id] }
  match forwardData n m1 direct m1.to with
  | (es, res, toEp, m2) =>
    if res ≥ 0 ∧ n.isChild m2.to then
      match toEp with
      | some e =>
        if n.listenFd e.ref && n.isChild direct && n.isChild e.id then (es ++ [.sync direct e], n.sync direct e.ref)
        else (es, res)
      | none => (es, res)
    else
      let r2 : List Eff × Int × Msg :=
        if res < 0 ∧ n.isParent m2.src = false ∧ n.isChild m2.to = false then
          match n.parent with
          | some p =>
            if notParent n toEp then
              match forwardData n m2 direct p.id with
              | (es', res', _, m3) => (es ++ es', res', m3)
            else (es, res, m2)
          | none => (es, res, m2)
        else (es, res, m2)
      if r2.2.1 < 0 ∨ r2.2.2.needRsp then
        match sendTransferRsp n r2.2.2 r2.2.1 with
        | (es'', res'') => (r2.1 ++ es'', res'')
      else (r2.1, r2.2.1)

/-- `msg_handler::on_recv_data_transfer_req`, `src/atbus_msg_handler.cpp:422-525`.  `conn` is the state of the connection
the message came from (`some true`: CONNECTED), `none` for a message from the node itself. -/
def transferReq (n : Node) (conn : Option Bool) (m : Msg) : List Eff × Int :=
  if m.version < n.minVersion then sendTransferRsp n m Err.UNSUPPORTED_VERSION
  else if conn = none ∧ m.src ≠ n.id then ([], Err.BAD_DATA)
  else if conn = some false then ([], Err.NOT_READY)
  else if m.to = n.id then
    if m.needRsp then
      match sendTransferRsp n m Err.SUCCESS with
      | (es, r) => (.deliver m :: es, r)
    else ([.deliver m], Err.SUCCESS)
  else if ttlReached n m then sendTransferRsp n m Err.ATNODE_TTL
  else forwardReq n m

/-- `msg_handler::on_recv_data_transfer_rsp`, `src/atbus_msg_handler.cpp:527-572`. -/
def transferRsp (n : Node) (conn : Option Bool) (m : Msg) : List Eff × Int :=
  if conn = none ∧ m.src ≠ n.id then ([], Err.BAD_DATA)
  else if conn = some false then ([], Err.NOT_READY)
  else if m.to = n.id then ([.response m], Err.SUCCESS)
  else
    match forwardData n m m.src m.to with
    | (es, r, _, _) => (es, r)

/-- `msg_handler::dispatch_msg` for data messages, `src/atbus_msg_handler.cpp:73-110`. -/
def handle (n : Node) (conn : Option Bool) (m : Msg) : List Eff × Int :=
  if m.rsp then transferRsp n conn m else transferReq n conn m

/-- The source set by `connection::unpack`, `src/atbus_connection.cpp:876-878`; `binding` is the id of the endpoint the
connection is bound to. -/
def unpackSrc (binding : Option Nat) (m : Msg) : Msg :=
  match binding with
  | none => m
  | some b => if b = 0 then m else { m with src := b }

/-- The message built by `node::send_data`, `src/atbus_node.cpp:868-892`. -/
def dataMsg (n : Node) (tid : Nat) (content : List Nat) (seq : Nat) (needRsp : Bool) : Msg :=
  { version := 2, src := n.id, seq := seq, from_ := n.id, to := tid, router := [n.id], needRsp := needRsp, content := content }

/-- `node::send_data`, `src/atbus_node.cpp:842-895`; `limit` is `conf.msg_size`. -/
def sendData (n : Node) (limit tid : Nat) (content : List Nat) (seq : Nat) (needRsp : Bool) : List Eff × Int :=
  if n.created then ([], Err.NOT_INITED)
  else if content.length > limit then ([], Err.INVALID_SIZE)
  else sendMsg n n.dataConn tid (dataMsg n tid content seq needRsp)

end Verif.Node
