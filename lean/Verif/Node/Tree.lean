import Verif.Node.Forward

/-!
A network of nodes that send and forward data messages (`Verif/Node/Forward.lean`), with any order of sending and
handling.  In `run` the tables of the nodes do not change; in `netRun` they are arbitrary at every step.  A message that a
connection accepted arrives once at the node it leads to (C21, C12) unless it is lost; messages may overtake each other.
-/
namespace Verif.Node.Tree

open Verif.Node

/-- A message on its way: the node it comes to, the connection it comes by and the message.  `conn`: `none` for the node's
own queue (`src/atbus_node.cpp:2287-2330`), otherwise the id of the endpoint that the receiving connection is bound to. -/
structure Packet where
  at_ : Nat
  conn : Option (Option Nat)
  m : Msg
deriving DecidableEq, Repr

/-- The nodes by id, `conf.msg_size` of each, and the endpoint that a connection from one node is bound to at another.
`late`: a message that a connection of the node refused is sent later all the same (`C24_write_refused_false`). -/
structure World where
  node : Nat → Option Node
  limit : Nat → Nat
  bound : Nat → Nat → Option Nat
  late : Nat → Bool := fun _ => false

/-- What the applications see: `on_recv_msg` and `on_forward_response` at node `x`. -/
inductive Ev where
  | delivered (x : Nat) (m : Msg)
  | answered (x : Nat) (m : Msg)
deriving DecidableEq, Repr

/-- A call of `node::send_data`. -/
structure Send where
  x : Nat
  t : Nat
  content : List Nat
  seq : Nat
  need : Bool
deriving DecidableEq, Repr

/-- Messages under way, what happened so far, and the results of the calls. -/
structure S where
  fly : List Packet := []
  log : List Ev := []
  sends : List (Send × Int) := []

/-- The messages that an effect of node `x` puts on their way. -/
def packets (w : World) (x : Nat) : Eff → Option Packet
  | .sent e _ m => some ⟨e.id, some (w.bound e.id x), m⟩
  | .toSelf m => some ⟨x, none, m⟩
  | .refused e _ m => if w.late x then some ⟨e.id, some (w.bound e.id x), m⟩ else none
  | _ => none

/-- What the application of node `x` sees of an effect. -/
def seen (x : Nat) : Eff → Option Ev
  | .deliver m => some (.delivered x m)
  | .response m => some (.answered x m)
  | _ => none

/-- A data message in the node's own queue, `src/atbus_node.cpp:1723-1739`: it is handed up, with an answer that the node
makes up if one was asked for; answers in the queue are dropped. -/
def ownQueue (m : Msg) : List Eff :=
  if m.rsp then [] else .deliver m :: if m.needRsp then [.response { m with rsp := true, ret := 0 }] else []

/-- A node handles a message, `src/atbus_connection.cpp:855-881`, `src/atbus_msg_handler.cpp:73-110`. -/
def receive (w : World) (p : Packet) : List Eff :=
  match w.node p.at_ with
  | none => []
  | some n =>
    match p.conn with
    | none => ownQueue p.m
    | some b => (handle n (some true) (unpackSrc b p.m)).1

/-- An application sends, or some message under way is handled. -/
inductive Op where
  | send (s : Send)
  | handle (i : Nat)
deriving DecidableEq, Repr

/-- Adds effects of node `x` to the state. -/
def S.apply (w : World) (s : S) (x : Nat) (es : List Eff) : S :=
  { s with fly := s.fly ++ es.filterMap (packets w x), log := s.log ++ es.filterMap (seen x) }

/-- One step. -/
def step (w : World) (s : S) : Op → S
  | .send d =>
    match w.node d.x with
    | none => s
    | some n =>
      let r := sendData n (w.limit d.x) d.t d.content d.seq d.need
      { s.apply w d.x r.1 with sends := s.sends ++ [(d, r.2)] }
  | .handle i =>
    match s.fly[i]? with
    | none => s
    | some p => S.apply w { s with fly := s.fly.eraseIdx i } p.at_ (receive w p)

/-- A history. -/
def run (w : World) (s : S) (ops : List Op) : S := ops.foldl (step w) s

/-- A step of a network that changes: the nodes are as they are then, or a message is lost with its connection or node. -/
inductive NetOp where
  | step (w : World) (o : Op)
  | lose (i : Nat)

/-- One step. -/
def netStep (s : S) : NetOp → S
  | .step w o => step w s o
  | .lose i => { s with fly := s.fly.eraseIdx i }

/-- A history. -/
def netRun (s : S) (ops : List NetOp) : S := ops.foldl netStep s

end Verif.Node.Tree
