import Verif.Node.Peer

/-!
Model of the heartbeat: the fault and ping counters of `Verif.Node.Peer` driven by the timers of `node::proc`,
`src/atbus_node.cpp` (add_endpoint, proc, on_parent_reg_done, add_ping_timer).

Each endpoint object has at most one ping timer; the order in which the timer list visits the due ones is an argument of
`proc` (any order that visits them all).  The ping loop itself is modelled in `Verif.Node.Timer` (C44), which says when it
ends; here it has ended.  The state of the connections of each endpoint is an argument of each call of `proc`.

Simplified: an endpoint that is removed is destroyed with its timer, that is nobody else holds it.  When the parent is gone or has
no control connection, the time of the next attempt is an argument (the cases are modelled for C61).  Times are unbounded
integers (`time_t` in the code).
-/
namespace Verif.Node.Heart

open Verif.Node.Peer (S In upd)

/-- The connections of an endpoint as `proc` finds them: there is a control connection, `send_ping` succeeds, there is a
data connection, `endpoint::is_available`. -/
structure Link where
  ctrl : Bool
  sent : Bool
  data : Bool
  avail : Bool
deriving DecidableEq, Repr

/-- A node: counters, and the members of `conf_` and `event_timer_` used, `include/atbus_node.h:116-119,722-733`. -/
structure H where
  p : S
  /-- `conf_.ping_interval`, `conf_.first_idle_timeout` -/
  interval : Int
  idle : Int
  /-- `event_timer_.sec` -/
  sec : Int := 0
  /-- the time of the entry in `event_timer_.ping_list` -/
  timer : Nat → Option Int := fun _ => none
  /-- `endpoint::stat_t::created_time_sec` -/
  created : Nat → Int := fun _ => 0
  /-- `node_parent_.node_` -/
  parent : Option Nat := none
  /-- `event_timer_.parent_opr_time_point` -/
  parentAt : Int := 0
  /-- `pending_endpoint_gc_list` -/
  gc : List Nat := []

/-- The endpoint object is the one registered with its id. -/
def live (h : H) (r : Nat) : Bool := h.p.reg (h.p.idOf r) == some r

/-- What the destruction of removed endpoints does to the timers and the parent, `src/atbus_endpoint.cpp:183-231`,
`src/atbus_node.cpp:2222-2259`. -/
def prune (h : H) : H :=
  { h with
    timer := fun r => if live h r then h.timer r else none
    parent := h.parent.filter fun r => live h r }

/-- `endpoint::add_ping_timer` with `node::add_ping_timer`, `src/atbus_endpoint.cpp:418-441`,
`src/atbus_node.cpp:2102-2127`. -/
def addTimer (h : H) (r : Nat) : H :=
  { h with timer := upd h.timer r (if h.interval ≤ 0 ∨ h.p.idOf r = h.p.own then none else some (h.sec + h.interval)) }

/-- `endpoint::get_stat_created_time_sec`, `src/atbus_endpoint.cpp:670-678`: the time is not set on creation but when it is asked for first
(and again as long as it is not positive), which `proc` does only for an endpoint that is not available (`src/atbus_node.cpp:480-481,515-516`).
Simplified: the application does not ask (if it does, the time is noted earlier); the time itself is the subject of C105.
-/
def ask (h : H) (l : Link) (r : Nat) : H :=
  if l.avail = false ∧ h.created r ≤ 0 then { h with created := upd h.created r h.sec } else h

/-- `src/atbus_node.cpp:480-481,515-516`: not available for too long since the time noted by `ask`. -/
def overdue (h : H) (sec : Int) (l : Link) (r : Nat) : Bool := !l.avail && decide (h.created r + h.idle < sec)

/-- `ping_endpoint`, `src/atbus_node.cpp:1785-1824`. -/
def pingEp (h : H) (l : Link) (r : Nat) : H := prune { h with p := Peer.ping h.p r l.ctrl l.sent l.data }

/-- The part of `proc` for the parent, `src/atbus_node.cpp:459-493`; `next`: the time of the next attempt when there is no
control connection. -/
def parentPart (h : H) (sec : Int) (link : Nat → Link) (next : Int) : H :=
  if h.p.own ≠ 0 ∧ h.parentAt ≠ 0 ∧ h.parentAt < sec then
    match h.parent with
    | none => { h with parentAt := next }
    | some r =>
      if (link r).ctrl then
        let g := ask h (link r) r
        let h1 := if overdue g sec (link r) r then { g with gc := g.gc ++ [r] } else pingEp g (link r) r
        { h1 with parentAt := sec + h.interval }
      else { h with parentAt := next }
  else h

/-- The body of the ping loop for an entry whose time has come, `src/atbus_node.cpp:513-532`. -/
def pingDue (sec : Int) (link : Nat → Link) (h : H) (r : Nat) : H :=
  if overdue h sec (link r) r then addTimer { h with gc := h.gc ++ [r] } r
  else prune (addTimer (if h.parent = some r then h else pingEp h (link r) r) r)

/-- The body of the ping loop for one entry, `src/atbus_node.cpp:510-532`: nothing is done if the endpoint is gone or
its time has not come. -/
def pingOne (sec : Int) (link : Nat → Link) (h : H) (r : Nat) : H :=
  match h.timer r with
  | none => h
  | some t =>
    if live h r ∧ t ≤ sec then pingDue sec link (ask h (link r) r) r else h

/-- One entry of the list of endpoints to collect, `src/atbus_node.cpp:589-597`. -/
def collect (link : Nat → Link) (h : H) (r : Nat) : H :=
  if live h r ∧ (link r).avail = false then prune { h with p := Peer.removeEndpoint h.p (h.p.idOf r) none } else h

/-- The clock, parent, ping and collection parts of `node::proc`, `src/atbus_node.cpp:389-600`; `order`: the endpoints in
the order of their timers. -/
def proc (h : H) (sec : Int) (link : Nat → Link) (order : List Nat) (next : Int) : H :=
  let h := { h with sec := if sec > h.sec then sec else h.sec }
  let h := parentPart h sec link next
  let h := order.foldl (pingOne sec link) h
  { h.gc.foldl (collect link) h with gc := [] }

/-- What happens at a node. -/
inductive Op where
  | proc (sec : Int) (link : Nat → Link) (order : List Nat) (next : Int)
  /-- `add_endpoint` of a new object, as the parent or another one -/
  | add (r : Nat) (parent : Bool)
  /-- `on_parent_reg_done` -/
  | regDone
  /-- a message arrives -/
  | recv (c : Nat) (binding : Option Nat) (ms sec : Int) (m : In)
  /-- `remove_endpoint` for another reason -/
  | remove (id : Nat)
  /-- another use of a sequence number -/
  | alloc

/-- `node::add_endpoint`, `src/atbus_node.cpp:1063-1124`. -/
def add (h : H) (r : Nat) (parent : Bool) : H :=
  if h.p.idOf r ≠ h.p.own ∧ h.p.reg (h.p.idOf r) = none ∧ (parent = true → h.parent = none) then
    addTimer { h with
      p := Peer.step h.p (.register r)
      created := upd h.created r 0
      parent := if parent then some r else h.parent } r
  else h

/-- `node::on_parent_reg_done`, `src/atbus_node.cpp:1615-1624`. -/
def regDone (h : H) : H :=
  if h.sec + h.interval < h.parentAt then { h with parentAt := h.sec + h.interval } else h

/-- One event. -/
def step (h : H) : Op → H
  | .proc sec link order next => proc h sec link order next
  | .add r parent => add h r parent
  | .regDone => regDone h
  | .recv c b ms sec m => prune { h with p := Peer.onRecv h.p c b ms sec m }
  | .remove id => prune { h with p := Peer.removeEndpoint h.p id none }
  | .alloc => { h with p := { h.p with seq := allocSeq h.p.seq } }

/-- Runs the events in order (plumbing). -/
def run (h : H) (ops : List Op) : H := ops.foldl step h

/-- A started node without endpoints. -/
def init (tol own : Nat) (idOf : Nat → Nat) (interval idle : Int) (parentAt : Int) : H :=
  { p := Peer.init tol own idOf 0, interval := interval, idle := idle, parentAt := parentAt }

end Verif.Node.Heart
