import Verif.Basic

/-!
Model of `node::reset`, `src/atbus_node.cpp:270-387`, as far as the tables and lists of the node and its connections are concerned, with
`init` (189-222) and `start` (224-262).

The application is a parameter `app`: it stands for everything that happens in a callback, including the calls the application makes
there, the endpoint that is reset because its connection is, and endpoint objects that are destroyed because nothing refers to them any
more.  `calls` counts the callbacks, so that `app` may act differently each time.

Simplified: the own messages are dispatched (279-282) by one step of `app` (how: C40); a stream connection and a memory channel are one
kind of connection; libuv reports the end of every request of a connection that was closed.
-/
namespace Verif.Node.Reset

/-- `node::state_t`, `include/atbus_node.h:65-68`. -/
inductive St where
  | created | inited | lostParent | connectingParent | running
deriving DecidableEq, Repr

/-- `flags_`: ACTIVED, SHUTDOWN, RESETTING, RESETTING_GC and the others. -/
structure Flags where
  actived : Bool := false
  shutdown : Bool := false
  resetting : Bool := false
  gc : Bool := false
  other : Nat := 0
deriving DecidableEq, Repr

/-- `node::conf_t`, `include/atbus_node.h:104-133`: whether a parent address is given, two intervals, the flags, and the rest. -/
structure Conf where
  parentAddr : Bool := false
  retry : Nat := 3
  firstIdle : Nat := 30
  flags : Nat := 0
  rest : Nat := 0
deriving DecidableEq, Repr

/-- The members of `node`, `include/atbus_node.h:694-757`, and the objects they refer to.  Endpoints and connections are numbered. -/
structure S where
  st : St := .created
  flags : Flags := {}
  conf : Conf := {}
  /-- id of `self_` -/
  self : Option Nat := none
  /-- connections bound to `self_` (listening ones) -/
  selfConns : List Nat := []
  /-- `self_data_msgs_`, `self_cmd_msgs_` -/
  data : List Nat := []
  cmd : List Nat := []
  /-- `proc_connections_` -/
  procs : List Nat := []
  /-- `node_parent_.node_` -/
  parent : Option Nat := none
  /-- endpoints in `node_routes_`, one entry for each subnet -/
  routes : List Nat := []
  /-- `event_timer_.connecting_list` -/
  connecting : List Nat := []
  /-- endpoints in `event_timer_.ping_list` -/
  pings : List Nat := []
  gcEp : List Nat := []
  gcConn : List Nat := []
  /-- `ref_objs_` -/
  refs : List Nat := []
  /-- `iostream_channel_`, `static_buffer_` -/
  chan : Bool := false
  buf : Bool := false
  /-- `event_timer_.sec`, `.usec`, `.parent_opr_time_point` -/
  sec : Nat := 0
  usec : Nat := 0
  opr : Nat := 0
  hash : Nat := 0
  /-- `msg_seq_alloc_`, `stat_.dispatch_times` -/
  seq : Nat := 0
  disp : Nat := 0
  /-- connections bound to an endpoint -/
  conns : Nat → List Nat := fun _ => []
  /-- the connection is neither DISCONNECTED nor DISCONNECTING -/
  up : Nat → Bool := fun _ => false
  /-- ghost: callbacks so far -/
  calls : Nat := 0

/-- A callback. -/
def cb (app : S → S) (s : S) : S := app { s with calls := s.calls + 1 }

/-- `connection::reset`, `src/atbus_connection.cpp:97-130`, with `disconnect` (379-414) and `add_connection_gc_list`
(`src/atbus_node.cpp:1860-1868`). -/
def connReset (app : S → S) (s : S) (c : Nat) : S :=
  let s := cb app { s with connecting := s.connecting.filter (· ≠ c), up := fun x => if x = c then false else s.up x }
  { s with
    up := fun x => if x = c then false else s.up x
    connecting := s.connecting.filter (· ≠ c)
    procs := s.procs.filter (· ≠ c)
    selfConns := s.selfConns.filter (· ≠ c)
    conns := fun e => (s.conns e).filter (· ≠ c)
    gcConn := if s.flags.gc then s.gcConn else s.gcConn ++ [c] }

/-- A loop that resets the first connection of a list until the list is empty; `none`: still running after `fuel` rounds. -/
def drain (app : S → S) (sel : S → List Nat) : Nat → S → Option S
  | 0, s => if sel s = [] then some s else none
  | fuel + 1, s =>
    match sel s with
    | [] => some s
    | c :: _ => drain app sel fuel (connReset app s c)

/-- `endpoint::reset`, `src/atbus_endpoint.cpp:193-232` (the control connection is the first). -/
def epReset (app : S → S) (fuel : Nat) (e : Nat) (s : S) : Option S :=
  match drain app (fun s => s.conns e) fuel s with
  | none => none
  | some s => some { s with pings := s.pings.filter (· ≠ e), gcEp := if s.flags.gc then s.gcEp else s.gcEp ++ [e] }

/-- `endpoint::reset` for each of a list. -/
def epResets (app : S → S) (fuel : Nat) : List Nat → S → Option S
  | [], s => some s
  | e :: es, s =>
    match epReset app fuel e s with
    | none => none
    | some s => epResets app fuel es s

/-- The connections in `proc_connections_`, `src/atbus_node.cpp:286-301`. -/
def resetProcs (app : S → S) (s : S) : S := { s.procs.foldl (connReset app) s with procs := [] }

/-- The parent, `src/atbus_node.cpp:304-306`, `remove_endpoint` 2222-2248. -/
def resetParent (app : S → S) (s : S) : S :=
  match s.parent with
  | none => s
  | some _ =>
    let s := cb app { s with parent := none, st := .lostParent, opr := s.sec + s.conf.retry }
    if s.flags.actived then s else cb app s

/-- `remove_collection`, `src/atbus_node.cpp:2068-2080`: a callback for each entry. -/
def resetRoutes (app : S → S) (s : S) : S := s.routes.foldl (fun s _ => cb app s) { s with routes := [] }

/-- `node::reset` from the setting of RESETTING_GC on, `src/atbus_node.cpp:329-387`. -/
def resetRest (app : S → S) (fuel : Nat) (s : S) : Option S :=
  let s := cb app { s with flags := { s.flags with gc := true }, gcEp := [], gcConn := [] }
  match epResets app fuel s.pings s with
  | none => none
  | some s =>
    let s := { s with pings := [] }
    let s := { cb app s with refs := [] }
    let s := { cb app s with chan := false }
    some { s with buf := false, conf := { s.conf with flags := 0 }, st := .created, flags := {}, data := [], cmd := [] }

/-- `node::reset`, `src/atbus_node.cpp:270-387`. -/
def reset (app : S → S) (fuel : Nat) (s : S) : Option S :=
  if s.flags.resetting then some s
  else
    let s := cb app { s with flags := { s.flags with resetting := true } }
    let s := resetRoutes app (resetParent app (resetProcs app s))
    match drain app (fun s => s.connecting) fuel s with
    | none => none
    | some s =>
      match drain app (fun s => s.selfConns) fuel s with
      | none => none
      | some s => resetRest app fuel s

/-- `node::init`, `src/atbus_node.cpp:189-222`. -/
def init (app : S → S) (fuel : Nat) (id : Nat) (conf : Conf) (s : S) : Option S :=
  match if s.st = .created then some s else reset app fuel s with
  | none => none
  | some s => some { s with conf := conf, self := some id, selfConns := [], buf := true, data := [], cmd := [], st := .inited }

/-- What `start` gets from outside: the time, the hash code, whether `connect` succeeds, and the connection it makes then. -/
structure Env where
  sec : Nat
  usec : Nat
  hash : Nat
  ok : Bool
  conn : Nat

/-- `node::start`, `src/atbus_node.cpp:224-262`, with `on_actived` (1599-1613) without its callback. -/
def start (v : Env) (s : S) : S :=
  if s.st = .created then s
  else
    let s := { s with sec := v.sec, usec := v.usec, hash := v.hash }
    if s.self.getD 0 ≠ 0 ∧ s.conf.parentAddr then
      if s.parent = none then
        if v.ok then
          { s with
            connecting := s.connecting ++ [v.conn], up := fun x => if x = v.conn then true else s.up x
            chan := true, opr := s.sec + s.conf.firstIdle, st := .connectingParent }
        else { s with chan := true, opr := s.sec + s.conf.retry, st := .lostParent }
      else s
    else { s with st := .running, flags := { s.flags with actived := true } }

/-- The test of `proc` whether to connect to the parent, `src/atbus_node.cpp:459-468`. -/
def connectsParent (s : S) (sec : Nat) : Bool :=
  decide (s.st ≠ .created) && decide (s.self.getD 0 ≠ 0) && s.conf.parentAddr && decide (s.opr ≠ 0) && decide (s.opr < sec) && s.parent.isNone

end Verif.Node.Reset
