import Verif.Basic

/-!
Model of the ping timers of a node with the places of their list nodes: every endpoint keeps an iterator into `event_timer_.ping_list`
(`endpoint::ping_timer_`) and a flag `HAS_PING_TIMER` that says whether it is to be erased: `endpoint::create`, `~endpoint`, `reset`,
`set_flag`, `add_ping_timer`, `clear_ping_timer` (`src/atbus_endpoint.cpp:137-160,181-225,381-389,418-441`), `node::add_ping_timer`,
`remove_ping_timer` (`src/atbus_node.cpp:2102-2136`), the end of the body of the ping loop (`:530-559`), the times it uses (`:389-400`,
`:224-239`), and the clearing of the list in `node::reset` (`:329-356`).

Simplified: which endpoints are pinged and in what order is C44; here any endpoint may have its timer set again at any time.  The connections
of an endpoint are left out: between the begin and the end of its `reset` anything may happen.  The loop over the timers in `node::reset` is
one step.  Times do not overflow.
-/
namespace Verif.Node.PingIter

/-- An endpoint. -/
structure Ep where
  alive : Bool := false
  /-- `RESETTING` -/
  resetting : Bool := false
  /-- `HAS_PING_TIMER` -/
  has : Bool := false
  /-- `ping_timer_`; `none`: the end of the list -/
  it : Option Nat := none
deriving DecidableEq, Repr

/-- An element of `ping_list`: address of the list node, time, endpoint (a weak pointer). -/
structure Entry where
  addr : Nat
  tick : Int
  ep : Nat
deriving DecidableEq, Repr

structure S where
  list : List Entry
  ep : Nat → Ep
  /-- addresses of list nodes below have been used -/
  fresh : Nat
  /-- `event_timer_.sec` -/
  clock : Int
  /-- the argument of the `proc` that is running -/
  proc : Option Int
  /-- `EN_FT_RESETTING_GC` -/
  gc : Bool
  /-- `conf_.ping_interval` -/
  interval : Int
  /-- how often the line that "should never be reached" was, `src/atbus_node.cpp:551` -/
  pops : Nat

/-- A node with a ping interval. -/
def init (interval clock : Int) : S where
  list := []
  ep := fun _ => {}
  fresh := 0
  clock := clock
  proc := none
  gc := false
  interval := interval
  pops := 0

def setEp (s : S) (r : Nat) (e : Ep) : S := { s with ep := fun x => if x = r then e else s.ep x }

/-- `node::remove_ping_timer`, `src/atbus_node.cpp:2129-2136`; `none`: an iterator to an element that is not there is erased. -/
def nodeRemove (s : S) (it : Option Nat) : Option S :=
  match it with
  | none => some s
  | some a => if s.list.any (fun e => e.addr == a) then some { s with list := s.list.filter fun e => e.addr != a } else none

/-- `endpoint::clear_ping_timer`, `src/atbus_endpoint.cpp:434-441`. -/
def clearTimer (s : S) (r : Nat) : Option S :=
  if (s.ep r).has then
    (nodeRemove s (s.ep r).it).map fun s => setEp s r { s.ep r with it := none, has := false }
  else some s

/-- `node::add_ping_timer`, `src/atbus_node.cpp:2102-2127`, with `set_flag` after it; `same`: the endpoint has the id of the node. -/
def nodeAdd (s : S) (r : Nat) (same : Bool) : S :=
  if same ∨ s.interval ≤ 0 ∨ s.gc then setEp s r { s.ep r with it := none }
  else setEp { s with list := s.list ++ [⟨s.fresh, s.clock + s.interval, r⟩], fresh := s.fresh + 1 } r
    { s.ep r with it := some s.fresh, has := true }

/-- `endpoint::add_ping_timer`, `src/atbus_endpoint.cpp:418-432`. -/
def addTimer (s : S) (r : Nat) (same : Bool) : Option S :=
  (clearTimer s r).map fun s => if (s.ep r).resetting then s else nodeAdd s r same

/-- The end of `endpoint::reset`, `src/atbus_endpoint.cpp:213-221`. -/
def finish (s : S) (r : Nat) : Option S :=
  (clearTimer s r).map fun s => setEp s r { s.ep r with resetting := false, has := false }

/-- `endpoint::ptr_t::lock`. -/
def lock (s : S) (r : Nat) : Option Nat := if (s.ep r).alive then some r else none

/-- The end of the body of the ping loop, `src/atbus_node.cpp:535-559`: is the first element removed? -/
def protect (s : S) (sec tick : Int) (next : Option Nat) : S :=
  match s.list with
  | [] => s
  | e :: rest => if e.tick ≤ sec ∧ e.tick = tick ∧ lock s e.ep = next then { s with list := rest, pops := s.pops + 1 } else s

/-- Clears the timers of the given endpoints, `src/atbus_node.cpp:348-354`. -/
def clearAll (s : S) : List Nat → Option S
  | [] => some s
  | r :: rs =>
    -- `reset` does nothing if it is running already
    match if (s.ep r).resetting then clearTimer s r else finish s r with
    | none => none
    | some s => clearAll s rs

/-- What happens. -/
inductive Ev where
  /-- `endpoint::create`, `src/atbus_endpoint.cpp:137-160` -/
  | create (r : Nat) (same : Bool)
  /-- `endpoint::add_ping_timer` -/
  | add (r : Nat) (same : Bool)
  /-- `endpoint::clear_ping_timer` -/
  | clear (r : Nat)
  /-- `endpoint::reset` -/
  | resetBegin (r : Nat)
  | resetEnd (r : Nat)
  /-- the last pointer goes: `~endpoint` -/
  | free (r : Nat)
  /-- `node::proc` begins, `src/atbus_node.cpp:389-400` -/
  | proc (sec : Int)
  /-- a round of the ping loop from `:530` on, for an endpoint (`next`) that exists, or for none -/
  | round (tick : Int) (next : Option Nat) (same : Bool)
  | procEnd
  /-- `node::start` sets the time, `:229-238` -/
  | start (sec : Int)
  /-- `node::reset`, `:329-356` -/
  | resetGc
  /-- the end of `node::reset`, `:381` -/
  | resetDone
  /-- the application calls `set_flag(HAS_PING_TIMER, v)`, which is public -/
  | setFlag (r : Nat) (v : Bool)
deriving DecidableEq, Repr

/-- Outcome. -/
inductive Out where
  | ok (s : S)
  /-- a list node is erased that has been freed, or an iterator that belongs to no list -/
  | ub

def ofOption : Option S → Out
  | none => .ub
  | some s => .ok s

/-- One step; `none`: it cannot happen. -/
def step (s : S) : Ev → Option Out
  | .create r same => if (s.ep r).alive then none else some (.ok (nodeAdd (setEp s r { alive := true }) r same))
  | .add r same => if (s.ep r).alive then some (ofOption (addTimer s r same)) else none
  | .clear r => if (s.ep r).alive then some (ofOption (clearTimer s r)) else none
  | .resetBegin r =>
    if (s.ep r).alive ∧ (s.ep r).resetting = false then some (.ok (setEp s r { s.ep r with resetting := true })) else none
  | .resetEnd r => if (s.ep r).alive ∧ (s.ep r).resetting then some (ofOption (finish s r)) else none
  -- `reset` holds a pointer while it runs, `src/atbus_endpoint.cpp:198`
  | .free r =>
    if (s.ep r).alive ∧ (s.ep r).resetting = false then
      some (ofOption ((finish s r).map fun s => setEp s r { s.ep r with alive := false }))
    else none
  | .proc sec => if s.proc = none then some (.ok { s with clock := if sec > s.clock then sec else s.clock, proc := some sec }) else none
  | .round tick next same =>
    match s.proc, next with
    | none, _ => none
    | some sec, none => some (.ok (protect s sec tick none))
    | some sec, some r =>
      if (s.ep r).alive then some (ofOption ((addTimer s r same).map fun s => protect s sec tick (some r))) else none
  | .procEnd => if s.proc = none then none else some (.ok { s with proc := none })
  | .start sec => some (.ok { s with clock := sec })
  | .resetGc =>
    -- the endpoints with a timer that still exist, then all that is left
    some (ofOption ((clearAll { s with gc := true } ((s.list.map (·.ep)).filter fun r => (s.ep r).alive)).map fun s => { s with list := [] }))
  | .resetDone => some (.ok { s with gc := false })
  | .setFlag r v => if (s.ep r).alive then some (.ok (setEp s r { s.ep r with has := v })) else none

/-- A sequence of events. -/
def run (s : S) : List Ev → Option Out
  | [] => some (.ok s)
  | e :: es =>
    match step s e with
    | none => none
    | some .ub => some .ub
    | some (.ok t) => run t es

end Verif.Node.PingIter
