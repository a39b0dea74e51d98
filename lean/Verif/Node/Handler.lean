/-!
Model of the pointers that the message handlers of `src/atbus_msg_handler.cpp` and `node::on_recv` keep while the application is called.

A handler is the list of what it does with the pointer of the connection (`conn`) and with pointers to endpoints (`ep`, `to_ep`, `new_ep`) on
one path through its code, in order; what else it does is left out.  Choices of the code are parameters of the paths.  Callbacks of the
application are `cb`; in each the application may do anything listed in `Act`.

Endpoint objects are numbers that are never used twice.  An endpoint exists as long as the tables of the node (`node_parent_`,
`node_routes_`), the list `pending_endpoint_gc_list` or a local `endpoint::ptr_t` holds it; the connection as long as an endpoint or a list of
the node, `pending_connection_gc_list` or a local `connection::ptr_t` holds it.

Simplified: actions inside callbacks of other actions come after them; other connections of an endpoint are not tracked; the connection a
message is forwarded to is not tracked; handlers do not run inside a collection.
-/
namespace Verif.Node.Handler

/-- The raw pointers of a handler. -/
abbrev Var := Fin 2

/-- What the application does in a callback. -/
inductive Act where
  /-- `node::remove_endpoint`, `src/atbus_node.cpp:2222-2259` -/
  | remove (e : Nat)
  /-- `node::disconnect`, `src/atbus_node.cpp:795-838` -/
  | disconnect (e : Nat)
  /-- `endpoint::reset`, `src/atbus_endpoint.cpp:193-230` -/
  | resetEp (e : Nat)
  /-- `connection::reset`, `src/atbus_connection.cpp:97-131`; `ctrl`: it is the control connection of its endpoint -/
  | resetConn (ctrl : Bool)
  /-- `node::add_endpoint` with an endpoint made by the application -/
  | add
  /-- `node::proc` or `node::poll`: the collections at their ends, `src/atbus_node.cpp:578-602`, `:639-663`; `avail`: what is available -/
  | collect (avail : List Nat)
  /-- `node::reset`, `src/atbus_node.cpp:270-380` -/
  | nodeReset

/-- What a handler does. -/
inductive Ins where
  /-- `v = conn->get_binding()` -/
  | bindOf (v : Var)
  /-- `v = n.get_endpoint(..)` or the target of `get_remote_channel` -/
  | find (v : Var) (o : Option Nat)
  /-- `endpoint::ptr_t new_ep = endpoint::create(..); v = new_ep.get()` -/
  | new (v : Var)
  /-- the end of the scope of `new_ep` -/
  | drop
  /-- `add_endpoint(new_ep)` -/
  | enter (v : Var)
  /-- `v->add_connection(conn, ..)` -/
  | link (v : Var)
  /-- `add_endpoint_gc_list(v->watch())` -/
  | defer (v : Var)
  /-- a member of the endpoint is used, if the pointer is not null -/
  | use (v : Var)
  /-- a callback is given these pointers -/
  | cb (vs : List Var)
  /-- a callback is given `conn->get_binding()` -/
  | cbBind
  /-- `remove_endpoint(v->get_id())` with its callback -/
  | expel (v : Var)
  /-- `conn->reset()` -/
  | resetConn (ctrl : Bool)
  /-- a member of the connection is used -/
  | useConn
  /-- `conn_sptr = conn->watch()` -/
  | watch
  /-- the end of the scope of `conn_sptr` -/
  | unwatch
deriving DecidableEq

/-- The objects and who holds them. -/
structure W where
  /-- endpoints in the tables of the node -/
  tab : List Nat := []
  /-- `pending_endpoint_gc_list` -/
  gc : List Nat := []
  /-- the local `new_ep` -/
  loc : Option Nat := none
  /-- number of endpoint objects made so far -/
  next : Nat := 0
  /-- `conn->binding_` -/
  bind : Option Nat := none
  /-- the connection is held by an endpoint or a list of the node -/
  own : Bool := true
  /-- it is on `pending_connection_gc_list` -/
  gcC : Bool := false
  /-- it is held by `conn_sptr` -/
  holdC : Bool := false
  /-- raw pointers -/
  vars : Var → Option Nat := fun _ => none
  /-- a destroyed object was used or given to the application -/
  bad : Bool := false
  /-- ghost: the application removed an endpoint the handler points to, or ran a collection or `node::reset` -/
  rude : Bool := false

/-- The endpoint exists. -/
def W.alive (w : W) (e : Nat) : Bool := w.tab.contains e || w.gc.contains e || w.loc == some e

/-- The connection exists. -/
def W.connAlive (w : W) : Bool := w.own || w.gcC || w.holdC

/-- The connection is taken from its endpoint and from the lists of the node, and put on the list for collection,
`src/atbus_connection.cpp:97-131`. -/
def unlink (w : W) : W := { w with bind := none, own := false, gcC := true }

/-- The destructor of the endpoint the connection is bound to resets the connection, `src/atbus_endpoint.cpp:186-192`. -/
def settle (w : W) : W :=
  match w.bind with
  | none => w
  | some e => if w.alive e then w else unlink w

/-- `connection::reset`; the reset of a control connection resets its endpoint, `src/atbus_endpoint.cpp:289-312`. -/
def resetC (w : W) (ctrl : Bool) : W :=
  match w.bind with
  | none => unlink w
  | some e => unlink (if ctrl then { w with gc := w.gc ++ [e] } else w)

/-- `endpoint::reset`. -/
def resetE (w : W) (e : Nat) : W :=
  let w := { w with gc := w.gc ++ [e] }
  if w.bind = some e then unlink w else w

/-- One action of the application.  Actions on objects that do not exist any more are not made. -/
def act (w : W) : Act → W
  | .remove e =>
    if w.tab.contains e then
      settle { w with tab := w.tab.filter (· ≠ e), rude := w.rude || (w.vars 0 == some e || w.vars 1 == some e) }
    else w
  | .disconnect e => if w.tab.contains e then resetE { w with tab := w.tab.filter (· ≠ e) } e else w
  | .resetEp e => if w.alive e then resetE w e else w
  | .resetConn ctrl => if w.connAlive then resetC w ctrl else w
  | .add => { w with tab := w.tab ++ [w.next], next := w.next + 1 }
  | .collect avail =>
    let gone := w.gc.filter (fun e => !avail.contains e)
    let w := match w.bind with
      | none => w
      | some e => if gone.contains e then unlink w else w
    settle { w with tab := w.tab.filter (fun e => !gone.contains e), gc := [], gcC := false, rude := true }
  | .nodeReset => { w with tab := [], gc := [], bind := none, own := false, gcC := false, rude := true }

/-- Several actions (plumbing). -/
def acts (w : W) : List Act → W
  | [] => w
  | a :: l => acts (act w a) l

/-- The pointer is null or its object exists. -/
def W.good (w : W) (v : Var) : Bool :=
  match w.vars v with
  | none => true
  | some e => w.alive e

/-- Records a use. -/
def need (w : W) (ok : Bool) : W := { w with bad := w.bad || !ok }

/-- Sets a pointer. -/
def W.set (w : W) (v : Var) (o : Option Nat) : W := { w with vars := fun u => if u = v then o else w.vars u }

/-- One thing a handler does; `l` is what the application does if it is called. -/
def step (w : W) (l : List Act) : Ins → W
  | .bindOf v => (need w w.connAlive).set v w.bind
  | .find v o =>
    match o with
    | none => w.set v none
    | some e => w.set v (if w.tab.contains e then some e else none)
  | .new v => { (w.set v (some w.next)) with loc := some w.next, next := w.next + 1 }
  | .drop => settle { w with loc := none }
  | .enter v =>
    match w.vars v with
    | none => w
    | some e => { need w (w.alive e) with tab := w.tab ++ [e] }
  | .link v =>
    match w.vars v with
    | none => w
    | some e => { need w (w.alive e) with bind := if w.alive e then some e else w.bind, own := true }
  | .defer v =>
    match w.vars v with
    | none => w
    | some e => if w.alive e then { w with gc := w.gc ++ [e] } else need w false
  | .use v => need w (w.good v)
  | .cb vs => acts (need w (vs.all w.good)) l
  | .cbBind =>
    acts (need w (w.connAlive && match w.bind with
      | none => true
      | some e => w.alive e)) l
  | .expel v =>
    match w.vars v with
    | none => w
    | some e =>
      let w := need w (w.alive e)
      if w.tab.contains e then
        settle { acts { w with tab := w.tab.filter (· ≠ e), loc := some e } l with loc := none }
      else w
  | .resetConn ctrl => if w.connAlive then resetC w ctrl else need w false
  | .useConn => need w w.connAlive
  | .watch => { need w w.connAlive with holdC := w.connAlive }
  | .unwatch => { w with holdC := false }

/-- Runs a path; `env` gives the actions at the first callback, the second, and so on (none when it is used up). -/
def exec (w : W) : List (List Act) → List Ins → W
  | _, [] => w
  | env, i :: p => exec (step w (env.head?.getD []) i) (if i matches .cb _ | .cbBind | .expel _ then env.tail else env) p

/-! ### The paths -/

/-- `msg_handler::send_msg` on the connection of the handler, `src/atbus_msg_handler.cpp:401-420`: an error, or the log callback and the push. -/
def sendMsg (ok : Bool) : List Ins := if ok then [.useConn, .cbBind, .useConn] else [.useConn, .cbBind]

/-- The same on another connection; `log`: there is a handler for the log. -/
def sendOther (ok log : Bool) : List Ins := if !ok || log then [.cb []] else []

/-- `msg_handler::send_reg`, `src/atbus_msg_handler.cpp:163-245`; `inited`: there is a `self_`. -/
def sendReg (inited ok : Bool) : List Ins := if inited then sendMsg ok else [.cb []]

/-- `on_recv_node_pong`, `src/atbus_msg_handler.cpp:1179-1205`; `hit`: the number is the expected one. -/
def pong (hit : Bool) : List Ins := [.bindOf 0, .cb [0], .use 0] ++ if hit then [.use 0, .use 0] else []

/-- `on_recv_node_ping`, `src/atbus_msg_handler.cpp:1132-1177`; `bound`: the connection had an endpoint. -/
def ping (bound ok : Bool) : List Ins := [.bindOf 0, .cb [0]] ++ if bound then sendMsg ok else []

/-- The way a refused answer ends, `src/atbus_msg_handler.cpp:1047-1072`. -/
def regRspFail (parent : Bool) : List Ins :=
  [.use 0, .defer 0, .useConn] ++ (if parent then [.cb [0], .cb [], .cb [0]] else [.cb [0]]) ++ [.resetConn true]

/-- `on_recv_node_reg_rsp`, `src/atbus_msg_handler.cpp:1004-1097`: the token is wrong; the registration failed; the parent refuses a node that
is not active; the node becomes active. -/
def regRsp (token fails parent up : Bool) : List Ins :=
  [.bindOf 0, .cb [0]] ++ (if token then [.cbBind] else []) ++
    if token || fails then regRspFail parent else if up then [.cb []] else []

/-- The answer to a registration, `src/atbus_msg_handler.cpp:988-1001`; none on memory channels, else as in `sendReg`. -/
def regTail (a : Option (Bool × Bool)) (refused ctrl : Bool) : List Ins :=
  [.useConn] ++ match a with
    | none => []
    | some (inited, ok) => sendReg inited ok ++ if refused then [.cb [0], .resetConn ctrl] else []

/-- One address of a new endpoint, `src/atbus_msg_handler.cpp:935-976`: nothing is done, or `connect` is called (`log`: a callback) and ends
well or not. -/
def chan : Option (Bool × Bool) → List Ins
  | none => [.use 0]
  | some (log, ok) => [.use 0] ++ (if log then [.cb [0]] else []) ++ (if ok then [.use 0, .use 0] else [.cb [0]])

/-- How a registration request ends. -/
inductive Reg where
  /-- old version, `:745-757`; wrong token, `:760-784` -/
  | refused (token inited ok : Bool)
  /-- the connection has an endpoint with another id or none, `:792-799` -/
  | mismatch
  /-- the connection has the endpoint, `:801-804` -/
  | again (a : Option (Bool × Bool))
  /-- a temporary node, `:806-810` -/
  | temporary (a : Option (Bool × Bool))
  /-- a registered endpoint takes the connection, `:818-834` -/
  | known (o : Option Nat) (a : Option (Bool × Bool))
  /-- it does not, because of another host or process or because it refuses the connection -/
  | conflict (o : Option Nat) (a : Option (Bool × Bool)) (ctrl : Bool)
  /-- the subnets of a child are not allowed, `:856-874` -/
  | child (a : Option (Bool × Bool)) (ctrl : Bool)
  /-- the subnets of the parent are not allowed, `:886-907` -/
  | parent (starting ctrl : Bool)
  /-- `add_endpoint` refuses, `:909-914` -/
  | unwanted (a : Option (Bool × Bool)) (ctrl : Bool)
  /-- the endpoint is new, `:916-986` -/
  | added (up log : Bool) (chans : List (Option (Bool × Bool))) (late : Bool) (a : Option (Bool × Bool))

/-- `on_recv_node_reg_req`, `src/atbus_msg_handler.cpp:722-1002`. -/
def regReq : Reg → List Ins
  | .refused token inited ok =>
    (if token then [.cbBind] else []) ++ [.useConn] ++ sendReg inited ok ++ if ok then [] else [.cbBind, .resetConn true]
  | .mismatch => [.bindOf 0, .use 0, .cb [0], .resetConn true, .useConn]
  | .again a => [.bindOf 0, .use 0, .use 0, .cb [0]] ++ regTail a false false
  | .temporary a => [.find 0 none, .useConn, .cb [0]] ++ regTail a false false
  | .known o a => [.find 0 o, .use 0, .link 0, .use 0, .cb [0]] ++ regTail a false false
  | .conflict o a ctrl => [.find 0 o, .use 0, .cb [0], .use 0, .cb [0]] ++ regTail a true ctrl
  | .child a ctrl => [.find 0 none, .cb [0], .cb []] ++ regTail a true ctrl
  | .parent starting ctrl =>
    [.new 0, .use 0, .useConn, .cb [0]] ++ (if starting then [.cb [], .cb [0]] else []) ++ [.resetConn ctrl, .defer 0, .drop, .useConn]
  | .unwanted a ctrl => [.new 0, .use 0, .useConn, .cb [0], .cb [0], .drop] ++ regTail a true ctrl
  | .added up log chans late a =>
    [.new 0, .use 0, .useConn, .enter 0] ++ (if up then [.cb []] else []) ++ [.cb [0]] ++ (if log then [.cb [0]] else []) ++
      [.link 0, .use 0] ++ chans.flatMap chan ++ (if late then [.defer 0] else []) ++ [.drop] ++ regTail a false false

/-- How forwarding ends, `src/atbus_msg_handler.cpp:29-69`. -/
inductive Fwd where
  /-- no way, `:49-52`; back to the sender, `:54-58` -/
  | fails
  /-- `send_msg` was called -/
  | sent (ok log : Bool)

/-- `forward_data_message`. -/
def forward (v : Var) (o : Option Nat) : Fwd → List Ins
  | .fails => [.find v o, .use v, .cb [v]]
  | .sent ok log => [.find v o, .use v] ++ sendOther ok log

/-- `send_transfer_rsp`, `src/atbus_msg_handler.cpp:247-290`. -/
def transferRsp (ok log : Bool) : List Ins := sendOther ok log ++ if ok then [] else [.cb []]

/-- `on_recv_data_transfer_req`, `src/atbus_msg_handler.cpp:464-522`. -/
inductive Tr where
  /-- the message is for this node, `:469-478` -/
  | here (log : Bool) (rsp : Option (Bool × Bool))
  /-- too many hops, `:481-483` -/
  | ttl (ok log : Bool)
  /-- forwarded to a child; `sync`: a request to connect is sent, `:494-503` -/
  | child (o : Option Nat) (log : Bool) (sync : Option (Bool × Bool))
  /-- forwarded without success; `up`: tried again over the parent, `:505-514`; then the answer, `:516-522` -/
  | failed (o : Option Nat) (f : Fwd) (up : Option (Option Nat × Fwd)) (rsp : Bool × Bool)

/-- The whole path of a data request. -/
def transferReq : Tr → List Ins
  | .here log rsp =>
    (if log then [.cbBind] else []) ++ [.bindOf 0, .cb [0]] ++ match rsp with
      | none => []
      | some (a, b) => transferRsp a b
  | .ttl a b => transferRsp a b
  | .child o log sync =>
    forward 0 o (.sent true log) ++ [.use 0, .use 0] ++ match sync with
      | none => []
      | some (a, b) => [.use 0, .use 0] ++ sendOther a b ++ if a then [] else [.cb []]
  | .failed o f up (a, b) =>
    forward 0 o f ++ [.use 0] ++ (match up with
      | none => []
      | some (o, g) => forward 1 o g) ++ transferRsp a b ++ if a then [] else [.cbBind]

/-- The message handlers. -/
inductive Path where
  /-- a message that is refused at once, for instance `:440-442`, `:456-459` -/
  | bad
  | ping (bound ok : Bool)
  | pong (hit : Bool)
  | regReq (r : Reg)
  | regRsp (token fails parent up : Bool)
  /-- `on_recv_node_conn_syn`, `:1099-1130` -/
  | connSyn (log : List Bool)
  /-- `on_recv_custom_cmd_req`, `:573-646`; `refused`: wrong token -/
  | cmdReq (refused : Bool) (answer : Option Bool)
  /-- `on_recv_custom_cmd_rsp`, `:648-685` -/
  | cmdRsp
  /-- `on_recv_node_sync_req`, `on_recv_node_sync_rsp`, `:687-720` -/
  | sync
  | transferReq (t : Tr)
  /-- `on_recv_data_transfer_rsp`, `:524-571`: for this node (`fails`: with an error), or forwarded -/
  | transferRsp (fails : Bool) (fwd : Option (Option Nat × Fwd))

/-- The code of a path. -/
def Path.code : Path → List Ins
  | .bad => [.cbBind]
  | .ping b o => Handler.ping b o
  | .pong h => Handler.pong h
  | .regReq r => Handler.regReq r
  | .regRsp t f p u => Handler.regRsp t f p u
  | .connSyn l => [.useConn] ++ l.flatMap fun b => if b then [.cb []] else []
  | .cmdReq refused a =>
    (if refused then [.cbBind] else [.bindOf 0, .cb [0], .useConn]) ++ match a with
      | none => []
      | some ok => sendMsg ok
  | .cmdRsp => [.bindOf 0, .cb [0]]
  | .sync => [.useConn]
  | .transferReq t => Handler.transferReq t
  | .transferRsp fails fwd =>
    match fwd with
    | none => (if fails then [.cbBind] else []) ++ [.bindOf 0, .cb [0]]
    | some (o, f) => forward 0 o f

/-- What `on_recv` does after the handler, `src/atbus_node.cpp:1463-1484`. -/
inductive End where
  /-- an error: `expel`: the endpoint has too many faults; `close`: the connection has -/
  | fault (expel close : Bool)
  | fine

/-- The code of an end (plumbing). -/
def End.code : End → List Ins
  | .fault x c => [.bindOf 1, .use 1] ++ (if x then [.expel 1] else []) ++ [.useConn] ++ if c then [.resetConn true] else []
  | .fine => [.bindOf 1, .use 1, .useConn]

/-- `node::on_recv` of a message, `src/atbus_node.cpp:1458-1484`, with `dispatch_msg`. -/
def onRecv (log : Bool) (p : Path) (e : End) : List Ins :=
  [.watch] ++ (if log then [.cbBind] else []) ++ p.code ++ e.code ++ [.unwatch]

/-- `node::on_recv` of an error of the channel, `src/atbus_node.cpp:1441-1456`. -/
def onError (x c : Bool) : List Ins :=
  [.useConn, .cbBind, .watch, .bindOf 1, .use 1] ++ (if x then [.expel 1] else []) ++ [.useConn] ++ (if c then [.resetConn true] else []) ++
    [.unwatch]

/-- `iostream_on_recv_cb` with a message, `src/atbus_connection.cpp:590-622`. -/
def ioRecv (log : Bool) (p : Path) (e : End) : List Ins := [.useConn] ++ onRecv log p e

/-- A message in a memory channel: it cannot be unpacked, or is handled. -/
inductive MemMsg where
  | garbage
  | msg (log : Bool) (p : Path) (e : End)

/-- One turn of the loop of `mem_proc_fn`, `src/atbus_connection.cpp:783-817`. -/
def memTurn : MemMsg → List Ins
  | .garbage => [.useConn, .cbBind]
  | .msg log p e => [.useConn] ++ onRecv log p e

/-- The end of the loop (plumbing). -/
def memErr : Option (Bool × Bool) → List Ins
  | none => []
  | some (x, c) => onError x c

/-- `mem_proc_fn`: the messages, then nothing or an error. -/
def memProc (l : List MemMsg) (err : Option (Bool × Bool)) : List Ins := l.flatMap memTurn ++ ([.useConn] ++ memErr err)

end Verif.Node.Handler
