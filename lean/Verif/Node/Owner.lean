import Verif.Basic

/-!
Model of how long the connections and endpoints of a node live: every one of them keeps a plain pointer `owner_` to its node, which is set on
creation and never cleared (`src/atbus_connection.cpp:70-85,119-125`, `src/atbus_endpoint.cpp:137-160,221-224`), and which their destructors
use (`src/atbus_connection.cpp:87-130`, `src/atbus_endpoint.cpp:181-225`).  Shared pointers to them are held by the tables and lists of the
node (`include/atbus_node.h:694-756`), by operations of streams that are not finished (`src/atbus_connection.cpp:21-61`), and by the
application (`connection::create`, `endpoint::create`, `watch`).

Simplified: endpoints and connections are both called objects, an endpoint's own connections count as being held by the tables; what a
callback does inside a destructor is a later event; an operation of a stream is only begun while the node is initialized (for the other case
see C102); `reset` up to the clearing of the pending lists is one step (for calls into the node inside it see C99).
-/
namespace Verif.Node.Owner

/-- `node::state_`, with the part of `reset` from `src/atbus_node.cpp:329` on and the time after `~node` as states. -/
inductive NodeSt where
  | created
  | live
  /-- `EN_FT_RESETTING_GC` is set, `:329`: the lists have been cleared, `uv_run` for what is still referred to, `:360-362` -/
  | resetting
  /-- after `~node` -/
  | gone
deriving DecidableEq, Repr

/-- Who holds objects. -/
structure S where
  st : NodeSt
  /-- `connecting_list` and `proc_connections_`, from which the destructor of an element removes the element itself
  (`src/atbus_connection.cpp:108,404-408`, `src/atbus_node.cpp:1418-1431`) -/
  own : List Nat
  /-- `node_parent_`, `node_routes_` and the connections of their endpoints -/
  tab : List Nat
  /-- `pending_endpoint_gc_list`, `pending_connection_gc_list` -/
  gc : List Nat
  /-- `connection_async_data`: operations that are not finished (`ref_objs_`) -/
  wait : List Nat
  self : Option Nat
  /-- how many pointers the application has -/
  refs : Nat → Nat
  /-- the next new object -/
  next : Nat
  /-- what has been destroyed, in order -/
  log : List Nat

/-- `node::create`, `src/atbus_node.cpp:161-177`. -/
def S.init : S where
  st := .created
  own := []
  tab := []
  gc := []
  wait := []
  self := none
  refs := fun _ => 0
  next := 0
  log := []

/-- Some shared pointer to the object is left. -/
def S.alive (s : S) (o : Nat) : Bool :=
  s.own.contains o || s.tab.contains o || s.gc.contains o || s.wait.contains o || s.self == some o || decide (0 < s.refs o)

/-- What goes wrong. -/
inductive Bad where
  /-- a destructor or `reset` of an object uses the node after it was freed -/
  | useAfterFree
  /-- an element is erased from a list that is being destroyed -/
  | eraseInDestructor
deriving DecidableEq, Repr

/-- Outcome of a step. -/
inductive Out where
  | ok (s : S)
  | bad (b : Bad)

/-- The objects to which the last pointer went away between `s` and `t`. -/
def dead (s t : S) : List Nat := (List.range s.next).filter fun o => s.alive o && !t.alive o

/-- Their destructors run (`~connection`, `src/atbus_connection.cpp:87-95`, `~endpoint`, `src/atbus_endpoint.cpp:181-189`); both use
`*owner_`. -/
def sweep (s t : S) : Out :=
  if t.st = .gone ∧ dead s t ≠ [] then .bad .useAfterFree else .ok { t with log := t.log ++ dead s t }

/-- What happens. -/
inductive Ev where
  /-- `node::init` of a node that is not initialized (otherwise `reset` comes first) -/
  | init
  /-- `connection::create`: by the application (`app`), which gets a pointer, or by the node (`connect`, `listen`, an accepted stream) -/
  | create (app : Bool)
  /-- a handshake is finished; a memory channel also stays in `proc_connections_` (`keep`) -/
  | settle (o : Nat) (keep : Bool)
  /-- `reset` of an object: it leaves the tables for the pending lists -/
  | kill (o : Nat)
  /-- `proc` or `poll` clears the pending lists, `src/atbus_node.cpp:579-602` -/
  | collect
  | startOp (o : Nat)
  | endOp (o : Nat)
  /-- the application copies a pointer -/
  | take (o : Nat)
  /-- the application gives a pointer back -/
  | drop (o : Nat)
  | resetBegin
  | resetEnd
  /-- `~node`, of a node on which `reset` has run to its end or that is not initialized -/
  | destroy
deriving DecidableEq, Repr

/-- Change of a count. -/
def upd (f : Nat → Nat) (o n : Nat) : Nat → Nat := fun x => if x = o then n else f x

/-- The destructor of the node.  Body, `src/atbus_node.cpp:179-186`: `self_` is given up while the node is whole.  Then the members are
destroyed, `include/atbus_node.h:694-756` in reverse order: if `connecting_list` or `proc_connections_` holds the last pointer to an
object, its destructor erases the element from the list that is being destroyed.  The pending lists come after `event_msg_`, `ping_list` and
`connecting_list` in the order of declaration and so are destroyed before these: destructors of their elements find them whole. -/
def destroyNode (s : S) : Out :=
  match sweep s { s with self := none } with
  | .bad b => .bad b
  | .ok t =>
    if dead t { t with own := [] } ≠ [] then .bad .eraseInDestructor
    else match sweep t { t with own := [], tab := [], gc := [] } with
      | .bad b => .bad b
      | .ok u => .ok { u with st := .gone }

/-- One step; `none`: it cannot happen. -/
def step (s : S) : Ev → Option Out
  -- `src/atbus_node.cpp:189-222`: `self_` is replaced
  | .init => if s.st = .created then some (sweep s { s with st := .live, self := some s.next, next := s.next + 1 }) else none
  -- `src/atbus_connection.cpp:70-85`; `add_connection_timer` refuses while CREATED, `src/atbus_node.cpp:1398-1416`;
  -- `connect` and `listen` refuse then as well
  | .create app =>
    if s.st = .gone ∨ (s.st = .created ∧ app = false) then none
    else some (sweep s { s with
      own := if s.st = .created then s.own else s.next :: s.own
      refs := if app then upd s.refs s.next 1 else s.refs
      next := s.next + 1 })
  | .settle o keep =>
    if s.own.contains o then
      some (sweep s { s with own := if keep then s.own else s.own.filter (· != o), tab := o :: s.tab })
    else none
  -- `src/atbus_connection.cpp:97-130`, `src/atbus_endpoint.cpp:191-225`, `src/atbus_node.cpp:1848-1868`
  | .kill o =>
    if s.alive o then
      if s.st = .gone then some (.bad .useAfterFree)
      else some (sweep s { s with
        own := s.own.filter (· != o)
        tab := s.tab.filter (· != o)
        gc := if s.st = .resetting then s.gc else o :: s.gc })
    else none
  | .collect => if s.st = .live then some (sweep s { s with gc := [] }) else none
  | .startOp o => if (s.st = .live ∨ s.st = .resetting) ∧ s.alive o then some (sweep s { s with wait := o :: s.wait }) else none
  | .endOp o => if s.wait.contains o then some (sweep s { s with wait := s.wait.erase o }) else none
  | .take o => if s.alive o then some (sweep s { s with refs := upd s.refs o (s.refs o + 1) }) else none
  | .drop o => if 0 < s.refs o then some (sweep s { s with refs := upd s.refs o (s.refs o - 1) }) else none
  -- `src/atbus_node.cpp:270-356`; `self_` stays, `:321-326`
  | .resetBegin => if s.st = .live then some (sweep s { s with st := .resetting, own := [], tab := [], gc := [] }) else none
  -- `:358-386`: the loop runs until nothing is referred to; lists that have been filled again are not looked at
  | .resetEnd => if s.st = .resetting ∧ s.wait = [] then some (sweep s { s with st := .created }) else none
  | .destroy => if s.st = .created then some (destroyNode s) else none

/-- A sequence of events; nothing comes after what goes wrong. -/
def run (s : S) : List Ev → Option Out
  | [] => some (.ok s)
  | e :: es =>
    match step s e with
    | none => none
    | some (.bad b) => some (.bad b)
    | some (.ok t) => run t es

end Verif.Node.Owner
