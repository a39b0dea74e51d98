import Verif.Basic

/-!
Model of the settings of a node and of where its streams run: `node::conf_t::operator=` (`src/atbus_node.cpp:59-83`), `node::default_conf`
(`:129-159`), the settings in `node::init` (`:189-222`), `node::get_evloop` (`:1210-1226`), `node::get_iostream_channel` (`:1182-1202`),
`node::get_iostream_conf` (`:2358-2380`), `io_stream_init_configure` and `io_stream_init` (`src/channel_io_stream.cpp:194-262`),
`io_stream_get_loop` (`:221-235`), and the end of `node::reset` (`src/atbus_node.cpp:359-380`).

Simplified: an operation of a stream that is not finished (`ref_object`) is a count, and running the loop that the channel is on finishes all
of them in `reset`, or any number of them elsewhere; sizes are natural numbers (the sums are below 2^64); calls inside callbacks are in C99.
-/
namespace Verif.Node.Loop

/-- `node::conf_t`, `include/atbus_node.h:104-133`. -/
structure Conf where
  evLoop : Option Nat
  subnets : List (Nat × Nat)
  flags : Nat
  parentAddress : List Char
  loopTimes : Int
  ttl : Int
  version : Int
  minimal : Int
  backlog : Int
  firstIdle : Int
  pingInterval : Int
  retryInterval : Int
  faultTolerant : Nat
  tokenMax : Nat
  tokens : List (List Byte)
  msgSize : Nat
  recvSize : Nat
  sendSize : Nat
  sendNumber : Nat
deriving DecidableEq, Repr

/-- `conf_t::operator=`, `src/atbus_node.cpp:59-83`. -/
def assign (this other : Conf) : Conf :=
  { this with
    evLoop := other.evLoop
    subnets := other.subnets
    flags := other.flags
    parentAddress := other.parentAddress
    loopTimes := other.loopTimes
    ttl := other.ttl
    version := other.version
    minimal := other.minimal
    firstIdle := other.firstIdle
    pingInterval := other.pingInterval
    retryInterval := other.retryInterval
    faultTolerant := other.faultTolerant
    backlog := other.backlog
    tokenMax := other.tokenMax
    tokens := other.tokens
    msgSize := other.msgSize
    recvSize := other.recvSize
    sendSize := other.sendSize
    sendNumber := other.sendNumber }

/-- `default_conf`, `src/atbus_node.cpp:129-159`, with the defaults of `project/cmake/ProjectBuildOption.cmake:34-51` and the versions of
`include/libatbus_protocol.proto:14-15`. -/
def setDefault (this : Conf) : Conf :=
  { this with
    evLoop := none
    subnets := []
    flags := 0
    parentAddress := []
    loopTimes := 128
    ttl := 16
    version := 2
    minimal := 2
    firstIdle := 30
    pingInterval := 8
    retryInterval := 3
    faultTolerant := 2
    backlog := 128
    tokenMax := 5
    tokens := []
    msgSize := 262144
    recvSize := 8388608
    sendSize := 2097152
    sendNumber := 0 }

/-- The settings `init` works with, `src/atbus_node.cpp:194-205`. -/
def initConf (old : Conf) (conf : Option Conf) : Conf :=
  let c := match conf with
    | none => setDefault old
    | some c => assign old c
  let c := if c.tokens.length > c.tokenMax then { c with tokens := c.tokens.take c.tokenMax } else c
  { c with version := 2, minimal := 2 }

/-- `io_stream_conf`; `recv_buffer_static` and the counters of failed reads are constants of `io_stream_init_configure`. -/
structure IoConf where
  keepalive : Int
  noblock : Bool
  nodelay : Bool
  sendStatic : Nat
  recvStatic : Nat
  sendMax : Nat
  sendLimit : Nat
  recvMax : Nat
  recvLimit : Nat
  backlog : Int
  confirm : Int
deriving DecidableEq, Repr

/-- `io_stream_init_configure`, `src/channel_io_stream.cpp:194-219`; `pad` is the padded size of a write request. -/
def ioDefault (pad : Nat) : IoConf where
  keepalive := 60
  noblock := true
  nodelay := true
  sendStatic := 0
  recvStatic := 0
  sendMax := 0
  sendLimit := 262144 + pad
  recvMax := 262144 * 2
  recvLimit := 262144
  backlog := 128
  confirm := 10

/-- What a new `iostream_conf_` is filled with, `src/atbus_node.cpp:2363-2377`. -/
def ioConf (pad : Nat) (c : Conf) : IoConf :=
  { ioDefault pad with
    recvLimit := c.msgSize + 1024
    recvMax := c.msgSize + c.msgSize + 1024 + 1024
    sendStatic := c.sendNumber
    sendMax := c.sendSize
    sendLimit := c.msgSize + 1024 + pad
    confirm := c.firstIdle
    backlog := c.backlog }

/-- An event loop: of the application, the default loop of libuv, or one that the channel made for itself. -/
inductive Lp where
  | app (n : Nat)
  | dflt
  | own
deriving DecidableEq, Repr

/-- `io_stream_channel`: its settings and `ev_loop`. -/
structure Chan where
  conf : IoConf
  loop : Option Lp
deriving DecidableEq, Repr

structure S where
  /-- `state_t::CREATED == state_` -/
  created : Bool := true
  conf : Conf
  /-- `ev_loop_` -/
  evLoop : Option Lp := none
  /-- `iostream_conf_` -/
  iconf : Option IoConf := none
  /-- `iostream_channel_` -/
  chan : Option Chan := none
  /-- size of `ref_objs_` -/
  refs : Nat := 0
deriving DecidableEq, Repr

/-- A new node: the constructor of `conf_t` calls `default_conf` on fields that hold anything, `src/atbus_node.cpp:53`, `:114-122`. -/
def new (junk : Conf) : S := { conf := setDefault junk }

/-- `get_evloop`, `src/atbus_node.cpp:1210-1226`. -/
def getEvloop (s : S) : S × Option Lp :=
  if s.created then (s, s.evLoop)
  else match s.evLoop with
    | some l => (s, some l)
    | none =>
      match s.conf.evLoop with
      | some n => ({ s with evLoop := some (.app n) }, some (.app n))
      | none => ({ s with evLoop := some .dflt }, some .dflt)

/-- `get_iostream_conf`, `src/atbus_node.cpp:2358-2380`. -/
def getIoConf (pad : Nat) (s : S) : S × IoConf :=
  match s.iconf with
  | some c => (s, c)
  | none => ({ s with iconf := some (ioConf pad s.conf) }, ioConf pad s.conf)

/-- `get_iostream_channel`, `src/atbus_node.cpp:1182-1202`; the order in which the two arguments of `io_stream_init` are computed makes no
difference. -/
def getChannel (pad : Nat) (s : S) : S :=
  match s.chan with
  | some _ => s
  | none =>
    let (s, l) := getEvloop s
    let (s, c) := getIoConf pad s
    { s with chan := some ⟨c, l⟩ }

/-- `io_stream_get_loop`, `src/channel_io_stream.cpp:221-235`. -/
def getLoop (c : Chan) : Chan :=
  match c.loop with
  | some _ => c
  | none => { c with loop := some .own }

/-- `reset`, the part from `src/atbus_node.cpp:359` on; `none`: it never ends, because the loop it runs is not the one on which the
operations it waits for are. -/
def reset (s : S) : Option S :=
  let done (s : S) : S := { s with chan := none, iconf := none, refs := 0, conf := { s.conf with flags := 0 }, created := true }
  if s.refs = 0 then some (done s)
  else
    let (s, l) := getEvloop s
    match s.chan with
    | none => none
    | some c => if c.loop = l ∧ l ≠ none then some (done s) else none

/-- What the application does. -/
inductive Ev where
  /-- `init`; `none`: without settings -/
  | init (conf : Option Conf)
  | reset
  | getEvloop
  | getChannel
  /-- `listen` or `connect` with the address of a stream that is not finished at once -/
  | op
  /-- the loop runs (`poll`, or by the application) and finishes `n` operations -/
  | run (l : Lp) (n : Nat)
deriving DecidableEq, Repr

/-- One event; `none`: a call that never returns. -/
def step (pad : Nat) (s : S) : Ev → Option S
  | .init conf =>
    match if s.created then some s else reset s with
    | none => none
    | some s =>
      let c := initConf s.conf conf
      some { s with conf := c, evLoop := c.evLoop.map .app, created := false }
  | .reset => reset s
  | .getEvloop => some (getEvloop s).1
  | .getChannel => some (getChannel pad s)
  | .op =>
    if s.created then some s
    else
      let s := getChannel pad s
      some { s with chan := s.chan.map getLoop, refs := s.refs + 1 }
  | .run l n =>
    match s.chan with
    | none => some s
    | some c => if c.loop = some l then some { s with refs := s.refs - n } else some s

/-- Runs the events in order. -/
def run (pad : Nat) (s : S) : List Ev → Option S
  | [] => some s
  | e :: es =>
    match step pad s e with
    | none => none
    | some s => run pad s es

end Verif.Node.Loop
