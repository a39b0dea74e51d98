import Verif.Node.Forward
import Verif.Node.Registry

/-!
Model of custom commands: `node::send_custom_cmd` (`src/atbus_node.cpp:897-969`), the handlers
`msg_handler::on_recv_custom_cmd_req`, `on_recv_custom_cmd_rsp`, `send_custom_cmd_rsp`
(`src/atbus_msg_handler.cpp:288-344,574-684`), and the dispatch of all kinds of messages
(`src/atbus_msg_handler.cpp:73-110`) as far as it decides what a message from an unregistered
connection may do.

The second part is a network of any number of nodes.  The routing state of a node (parent, route table, chosen
connections) is an arbitrary input of every call, so it may change at any time.
-/
namespace Verif.Node.Command

open Verif.Node (Node remoteChannel)
open Verif.Node.Registry (Key access keysOf)

/-- An argument of a command, `custom_command_argv`, `include/libatbus_protocol.proto:24`. -/
abbrev Arg := List Nat

/-- `custom_command_data` with its `msg_head`, `include/libatbus_protocol.proto:24-30,79-85`.  `rsp`: the body is
`custom_command_rsp`. -/
structure Cmd where
  rsp : Bool := false
  version : Int := 2
  type : Int := 0
  ret : Int := 0
  seq : Nat := 0
  src : Nat := 0
  from_ : Nat := 0
  args : List Arg := []
  keys : List Key := []
deriving DecidableEq, Repr

/-- What the handlers read of a node besides its routing state. -/
structure Conf where
  id : Nat
  minVersion : Int := 2
  tokens : List Nat := []
  /-- `conf.msg_size` -/
  msgSize : Nat := 65536
  /-- `sizeof(custom_command_data)` -/
  base : Nat := 48

/-- The connection a message came from, as far as the handlers read it.  `fd`: flag REG_FD (a stream); `connected`: the
state is CONNECTED; `binding`: id of the endpoint. -/
structure Link where
  conn : Nat
  running : Bool := true
  fd : Bool := true
  connected : Bool := true
  binding : Option Nat := none
deriving DecidableEq, Repr

/-- An effect. -/
inductive Eff where
  /-- callback `on_custom_cmd` -/
  | exec (from_ : Nat) (args : List Arg)
  /-- callback `on_custom_rsp` -/
  | answer (from_ : Nat) (args : List Arg) (seq : Nat)
  /-- `connection::push` on connection `c` -/
  | push (c : Nat) (m : Cmd)
  /-- appended to `self_cmd_msgs_` -/
  | toSelf (m : Cmd)
deriving DecidableEq, Repr

/-- The text "Access Deny - Unsupported Version", `src/atbus_msg_handler.cpp:600`. -/
def textVersion : Arg := [65, 99, 99, 101, 115, 115, 32, 68, 101, 110, 121, 32, 45, 32, 85, 110, 115, 117, 112, 112, 111, 114, 116, 101, 100, 32, 86, 101, 114, 115, 105, 111, 110]

/-- The text "Access Deny - Invalid Token", `src/atbus_msg_handler.cpp:622`. -/
def textToken : Arg := [65, 99, 99, 101, 115, 115, 32, 68, 101, 110, 121, 32, 45, 32, 73, 110, 118, 97, 108, 105, 100, 32, 84, 111, 107, 101, 110]

/-- `node::send_msg`, `src/atbus_node.cpp:2273-2356`, for command messages (they have a head, a body and a sequence);
`fn` chooses the connection, `push` gives the result of `msg_handler::send_msg` on it. -/
def sendTo (n : Node) (fn : Nat → Option Nat) (push : Nat → Cmd → Int) (tid : Nat) (m : Cmd) : List Eff × Int :=
  if n.created then ([], Err.NOT_INITED)
  else if tid = n.id then ([.toSelf m], Err.SUCCESS)
  else
    match remoteChannel n fn tid with
    | (res, _, some c) => if res < 0 then ([], res) else ([.push c m], push c m)
    | (res, _, none) => if res < 0 then ([], res) else ([], Err.ATNODE_NO_CONNECTION)

/-- The message built by `node::send_custom_cmd`, `src/atbus_node.cpp:931-966`. -/
def cmdMsg (H : Nat → Nat → Nat × Nat) (cf : Conf) (args : List Arg) (seq : Nat) (salt : Nat → Nat) : Cmd :=
  { version := 2, seq := seq, src := cf.id, from_ := cf.id, args := args, keys := keysOf H cf.tokens salt }

/-- `sum_len`, `src/atbus_node.cpp:903-906`. -/
def sumLen (cf : Conf) (args : List Arg) : Nat := args.foldl (fun a x => a + (x.length + 2)) cf.base

/-- `node::send_custom_cmd`, `src/atbus_node.cpp:897-969`; `seq` is the given or allocated sequence. -/
def sendCmd (H : Nat → Nat → Nat × Nat) (cf : Conf) (n : Node) (push : Nat → Cmd → Int) (tid : Nat) (args : List Arg)
    (seq : Nat) (salt : Nat → Nat) : List Eff × Int :=
  if n.created then ([], Err.NOT_INITED)
  else if sumLen cf args > cf.msgSize then ([], Err.INVALID_SIZE)
  else sendTo n n.dataConn push tid (cmdMsg H cf args seq salt)

/-- The message built by `send_custom_cmd_rsp`, `src/atbus_msg_handler.cpp:299-335`. -/
def rspMsg (H : Nat → Nat → Nat × Nat) (cf : Conf) (data : List Arg) (type ret : Int) (seq : Nat) (salt : Nat → Nat) : Cmd :=
  { rsp := true, version := 2, type := type, ret := ret, seq := seq, src := cf.id, from_ := cf.id, args := data,
    keys := keysOf H cf.tokens salt }

/-- `msg_handler::send_custom_cmd_rsp`, `src/atbus_msg_handler.cpp:288-344`. -/
def sendRsp (H : Nat → Nat → Nat × Nat) (cf : Conf) (n : Node) (push : Nat → Cmd → Int) (conn : Option Link) (data : List Arg)
    (type ret : Int) (seq from_ : Nat) (salt : Nat → Nat) : List Eff × Int :=
  match conn with
  | some k => ([.push k.conn (rspMsg H cf data type ret seq salt)], push k.conn (rspMsg H cf data type ret seq salt))
  | none => sendTo n n.ctrlConn push from_ (rspMsg H cf data type ret seq salt)

/-- The condition for an answer, `src/atbus_msg_handler.cpp:639-640`. -/
def answers (cf : Conf) (conn : Option Link) (m : Cmd) : Bool :=
  (match conn with
   | some k => k.running && k.fd
   | none => false) || decide (cf.id = m.from_)

/-- `msg_handler::on_recv_custom_cmd_req`, `src/atbus_msg_handler.cpp:574-645`.  `resp` is what the application puts into
`rsp_data`. -/
def onReq (H : Nat → Nat → Nat × Nat) (cf : Conf) (n : Node) (push : Nat → Cmd → Int) (conn : Option Link) (m : Cmd)
    (resp : List Arg) (salt : Nat → Nat) : List Eff × Int :=
  if m.version < cf.minVersion then
    sendRsp H cf n push conn [textVersion] m.type Err.UNSUPPORTED_VERSION m.seq m.from_ salt
  else if conn = none ∧ m.from_ ≠ cf.id then ([], Err.BAD_DATA)
  else if access H cf.tokens m.keys = false then
    sendRsp H cf n push conn [textToken] m.type Err.ACCESS_DENY m.seq m.from_ salt
  else if answers cf conn m then
    match sendRsp H cf n push conn resp m.type 0 m.seq m.from_ salt with
    | (es, r) => (.exec m.from_ m.args :: es, r)
  else ([.exec m.from_ m.args], Err.SUCCESS)

/-- `msg_handler::on_recv_custom_cmd_rsp`, `src/atbus_msg_handler.cpp:647-684`. -/
def onRsp (cf : Conf) (conn : Option Link) (m : Cmd) : List Eff × Int :=
  if conn = none ∧ m.from_ ≠ cf.id then ([], Err.BAD_DATA)
  else ([.answer m.from_ m.args m.seq], Err.SUCCESS)

/-- `dispatch_msg` for commands, `src/atbus_msg_handler.cpp:73-110`. -/
def onCmd (H : Nat → Nat → Nat × Nat) (cf : Conf) (n : Node) (push : Nat → Cmd → Int) (conn : Option Link) (m : Cmd)
    (resp : List Arg) (salt : Nat → Nat) : List Eff × Int :=
  if m.rsp then onRsp cf conn m else onReq H cf n push conn m resp salt

/-! ### A network of nodes -/

/-- What does not change: the configuration of every node, the hash, and where the bytes written to a connection arrive
(node and connection).  A connection between two nodes that is closed and opened again is another connection.
`stream`: the connection is a stream; a memory connection can be read at one end and written at the other one only,
`src/atbus_connection.cpp:143-378` (`push_fn` is set by `connect` and not by `listen`). -/
structure World where
  conf : Nat → Conf
  hash : Nat → Nat → Nat × Nat
  peer : Nat → Nat → Option (Nat × Nat)
  stream : Nat → Nat → Bool

/-- A message under way; `conn = none`: in the node's own queue.  `tag` identifies the call of `send_custom_cmd` it belongs to and
is not part of the message. -/
structure Pkt where
  tag : Nat
  dst : Nat
  conn : Option Nat
  msg : Cmd
deriving DecidableEq, Repr

/-- What happened. -/
inductive Ev where
  /-- the application at `node` called `send_custom_cmd`, which gave the result `res`; `hop` is the id of the node the message
  is given to -/
  | called (tag node tid hop : Nat) (args : List Arg) (seq : Nat) (res : Int)
  /-- the application at `node` was handed the command and put `resp` into its answer -/
  | executed (tag node from_ : Nat) (args resp : List Arg)
  /-- `node` refused the command -/
  | refused (tag node : Nat) (code : Int)
  /-- the application at `node` was handed an answer -/
  | answered (tag node from_ : Nat) (args : List Arg) (seq : Nat)
  /-- a message was lost with its connection -/
  | lost (tag : Nat) (rsp : Bool)
deriving DecidableEq, Repr

/-- Messages under way, next tag, history. -/
structure Net where
  flight : List Pkt := []
  next : Nat := 0
  log : List Ev := []
deriving DecidableEq, Repr

/-- Puts what the effects of node `i` send under way. -/
def emit (w : World) (i : Nat) (r : Int) (tag : Nat) : List Eff → List Pkt
  | [] => []
  | .push c m :: es =>
    match w.peer i c with
    | some (j, d) => if r < 0 then emit w i r tag es else { tag := tag, dst := j, conn := some d, msg := m } :: emit w i r tag es
    | none => emit w i r tag es
  | .toSelf m :: es => { tag := tag, dst := i, conn := none, msg := m } :: emit w i r tag es
  | _ :: es => emit w i r tag es

/-- What the effects of handling `m` at node `i` mean for the log. -/
def record (i : Nat) (p : Pkt) (resp : List Arg) (es : List Eff) : List Ev :=
  es.filterMap fun
    | .exec f a => some (.executed p.tag i f a resp)
    | .answer f a q => some (.answered p.tag i f a q)
    | .push _ m => if m.rsp && m.ret ≠ 0 then some (.refused p.tag i m.ret) else none
    | .toSelf m => if m.rsp && m.ret ≠ 0 then some (.refused p.tag i m.ret) else none

/-- An event of a network. -/
inductive Op where
  /-- the application of node `i` with routing state `n` calls `send_custom_cmd`; `r` is the result of writing -/
  | send (i : Nat) (n : Node) (tid : Nat) (args : List Arg) (seq : Nat) (salt : Nat → Nat) (r : Int)
  /-- the message at position `k` arrives; `running` is the state of the connection, `resp` what the application answers -/
  | recv (k : Nat) (n : Node) (running : Bool) (binding : Option Nat) (resp : List Arg) (salt : Nat → Nat) (r : Int)
  /-- the message at position `k` is lost with its connection -/
  | lose (k : Nat)

/-- The id of the endpoint `get_remote_channel` chose. -/
def hop (n : Node) (tid : Nat) : Nat :=
  if tid = n.id then n.id
  else match remoteChannel n n.dataConn tid with
    | (_, some e, _) => e.id
    | (_, none, _) => n.id

/-- One event. -/
def step (w : World) (s : Net) : Op → Net
  | .send i n tid args seq salt r =>
    match sendCmd w.hash (w.conf i) n (fun _ _ => r) tid args seq salt with
    | (es, res) =>
      { flight := s.flight ++ emit w i r s.next es
        next := s.next + 1
        log := s.log ++ [.called s.next i tid (hop n tid) args seq res] }
  | .recv k n running binding resp salt r =>
    match s.flight[k]? with
    | none => s
    | some p =>
      match onCmd w.hash (w.conf p.dst) n (fun _ _ => r)
          (p.conn.map fun d => { conn := d, running := running, fd := w.stream p.dst d, binding := binding }) p.msg resp salt with
      | (es, _) =>
        { s with
          flight := s.flight.eraseIdx k ++ emit w p.dst r p.tag es
          log := s.log ++ record p.dst p resp es }
  | .lose k =>
    match s.flight[k]? with
    | none => s
    | some p => { s with flight := s.flight.eraseIdx k, log := s.log ++ [.lost p.tag p.msg.rsp] }

/-- Runs the calls in order (plumbing). -/
def run (w : World) (s : Net) (ops : List Op) : Net := ops.foldl (step w) s

/-! ### Messages from connections that are not registered -/

/-- The body of a message, `include/libatbus_protocol.proto:87-102`. -/
inductive Body where
  | data (m : Verif.Node.Msg)
  | cmd (m : Cmd)
  | nodeSync (rsp : Bool)
  | reg (rsp : Bool)
  | connSync (address : List Nat)
  | ping (timePoint : Int)
  | pong (timePoint : Int)

/-- What handling a message does. -/
inductive Act where
  /-- an effect of the handler of a data message -/
  | data (e : Verif.Node.Eff)
  /-- an effect of the handler of a command -/
  | cmd (e : Eff)
  /-- the handler of a registration is entered (`Verif/Node/Registry.lean`) -/
  | register
  /-- `node::connect` -/
  | connect (address : List Nat)
  /-- callbacks `on_endpoint_ping`, `on_endpoint_pong` with the id of the endpoint -/
  | onPing (binding : Option Nat)
  | onPong (binding : Option Nat) (timePoint : Int)
  /-- answer to a ping -/
  | pong (c : Nat) (ret : Int) (timePoint : Int)

/-- `msg_handler::dispatch_msg`, `src/atbus_msg_handler.cpp:73-110`, for a message received from connection `k`: data messages
(`:422-572`), commands (`:574-684`), node sync (`:686-724`), registration (`:726-1092`), connect sync (`:1094-1131`), ping and
pong (`:1133-1203`).  `version` is the one in the head. -/
def dispatch (H : Nat → Nat → Nat × Nat) (cf : Conf) (n : Node) (push : Nat → Cmd → Int) (k : Link) (version : Int)
    (b : Body) (resp : List Arg) (salt : Nat → Nat) : List Act :=
  match b with
  | .data m => (Verif.Node.handle n (some k.connected) { m with version := version }).1.map .data
  | .cmd m => (onCmd H cf n push (some k) { m with version := version } resp salt).1.map .cmd
  | .nodeSync _ => []
  | .reg _ => [.register]
  | .connSync a =>
    if version < cf.minVersion then []
    else if k.connected = false then []
    else if a = [] then []
    else [.connect a]
  | .ping t =>
    .onPing k.binding ::
      (match k.binding with
       | some _ => [.pong k.conn (if version < cf.minVersion then Err.UNSUPPORTED_VERSION else 0) t]
       | none => [])
  /- `on_pong` is given `m.node_ping_req()`, the default of a field that is not set -/
  | .pong _ => [.onPong k.binding 0]

end Verif.Node.Command
