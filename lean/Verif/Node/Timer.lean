import Verif.Basic

/-!
Model of the node clock, the connection timeouts and the ping timers: `src/atbus_node.cpp` (start, proc,
add_connection_timer, remove_connection_timer, add_ping_timer, remove_ping_timer), `src/atbus_connection.cpp` (create,
reset, set_status) and `src/atbus_endpoint.cpp` (add_ping_timer, clear_ping_timer).

Times are unbounded integers (`time_t` in the code).  The timer lists are lists in order; erasing by iterator is erasing
the entry of the object, which has at most one.
-/
namespace Verif.Node.Timer

/-! ### Clock and connection timeouts -/

/-- History (ghost). -/
inductive Ev where
  /-- a connection object is created; its attempt must be finished by the deadline -/
  | created (c : Nat) (deadline : Int)
  /-- it became connected -/
  | finished (c : Nat)
  /-- it was closed -/
  | dropped (c : Nat)
  /-- it was closed by `proc` at this time because of the timeout -/
  | expired (c : Nat) (now : Int)
deriving DecidableEq, Repr

/-- The members of `node::event_timer_` used, `include/atbus_node.h:722-733`, and the connections. -/
structure C where
  /-- `event_timer_.sec`, `event_timer_.usec` -/
  sec : Int := 0
  usec : Int := 0
  /-- `conf_.first_idle_timeout` -/
  idle : Int
  /-- `event_timer_.connecting_list` -/
  list : List (Int × Nat) := []
  /-- the number of the next connection object -/
  next : Nat := 0
  /-- which connections are connected -/
  conn : Nat → Bool := fun _ => false
  log : List Ev := []

/-- What happens between and inside calls of `proc`. -/
inductive Act where
  /-- `connection::create` -/
  | create
  /-- `connection::set_status(CONNECTED)` -/
  | finish (c : Nat)
  /-- `connection::reset` -/
  | drop (c : Nat)
deriving DecidableEq, Repr

/-- `connecting_list.erase`. -/
def erase (c : Nat) (l : List (Int × Nat)) : List (Int × Nat) := l.filter fun x => x.2 != c

/-- `connection::create` with `node::add_connection_timer`, `src/atbus_connection.cpp:70-85`, `src/atbus_node.cpp:1398-1414`;
`connection::set_status`, `src/atbus_connection.cpp:480-490`; `connection::reset`,
`src/atbus_connection.cpp:97-130`, with `node::remove_connection_timer`, `src/atbus_node.cpp:1416-1430`. -/
def act (s : C) : Act → C
  | .create => { s with list := s.list ++ [(s.sec + s.idle, s.next)], next := s.next + 1, conn := fun x => if x = s.next then false else s.conn x, log := s.log ++ [.created s.next (s.sec + s.idle)] }
  | .finish c => { s with list := erase c s.list, conn := fun x => if x = c then true else s.conn x, log := s.log ++ [.finished c] }
  | .drop c => { s with list := erase c s.list, conn := fun x => if x = c then false else s.conn x, log := s.log ++ [.dropped c] }

/-- What a callback does. -/
def acts (s : C) (l : List Act) : C := l.foldl act s

/-- The clock update of `node::proc`, `src/atbus_node.cpp:395-400`. -/
def advance (s : C) (sec usec : Int) : C :=
  if sec > s.sec then { s with sec := sec, usec := usec }
  else if sec = s.sec ∧ usec > s.usec then { s with usec := usec }
  else s

/-- The clock of `node::start`, `src/atbus_node.cpp:231-238`; the system time in the first case is an argument too. -/
def start (s : C) (sec usec : Int) : C := { s with sec := sec, usec := usec }

/-- The body for a connection that has timed out, `src/atbus_node.cpp:443-455`: the application learns of it
(`on_invalid_connection`, error callback) and may do anything `cb` says, then the timer is erased. -/
def expireOne (cb : List Ev → List Act) (s : C) (c : Nat) (now : Int) : C :=
  let s := { s with log := s.log ++ [.expired c now] }
  let s := acts s (cb s.log)
  { s with list := erase c s.list }

/-- The timeout loop of `node::proc`, `src/atbus_node.cpp:422-456`; `none`: not finished within the given number of
rounds.  `sec` is the argument of `proc`. -/
def expire (cb : List Ev → List Act) (sec : Int) : Nat → C → Option C
  | 0, _ => none
  | n + 1, s =>
    match s.list with
    | [] => some s
    | (d, c) :: _ =>
      if s.conn c then expire cb sec n { s with list := erase c s.list }
      else if d ≥ sec then some s
      else expire cb sec n (expireOne cb s c sec)

/-- The clock and timeout part of `node::proc`, `src/atbus_node.cpp:389-456`. -/
def proc (cb : List Ev → List Act) (fuel : Nat) (s : C) (sec usec : Int) : Option C := expire cb sec fuel (advance s sec usec)

/-- A call of the application. -/
inductive Op where
  | act (a : Act)
  | proc (sec usec : Int)
  | start (sec usec : Int)
deriving Repr

/-- One call. -/
def step (cb : List Ev → List Act) (fuel : Nat) (s : C) : Op → Option C
  | .act a => some (act s a)
  | .proc sec usec => proc cb fuel s sec usec
  | .start sec usec => some (start s sec usec)

/-- Runs the calls in order (plumbing). -/
def run (cb : List Ev → List Act) (fuel : Nat) (s : C) : List Op → Option C
  | [] => some s
  | op :: ops => (step cb fuel s op).bind fun s => run cb fuel s ops

/-- A node before `start`. -/
def init (idle : Int) : C := { idle := idle }

/-! ### Ping timers -/

/-- The state of the ping loop, `src/atbus_node.cpp:500-540`. -/
structure P where
  /-- `event_timer_.ping_list`: time, endpoint object -/
  list : List (Int × Nat)
  /-- `endpoint::is_available` -/
  avail : Nat → Bool
  /-- `pending_endpoint_gc_list` -/
  gc : List Nat := []
  /-- endpoints pinged -/
  pinged : List Nat := []

/-- What stays the same during the loop. -/
structure Env where
  /-- the argument of `proc` -/
  sec : Int
  /-- `event_timer_.sec` -/
  clock : Int
  /-- `conf_.ping_interval`, `conf_.first_idle_timeout` -/
  interval : Int
  idle : Int
  /-- what `get_stat_created_time_sec` gives for the endpoints (the clock if it was not asked for before; see `Heart.ask`) -/
  created : Nat → Int
  /-- the object still exists (`weak_ptr::lock`) -/
  alive : Nat → Bool
  /-- no timer is added again: the endpoint is being reset, or has the node's own id -/
  blocked : Nat → Bool
  parent : Option Nat
  /-- what `ping_endpoint` of an endpoint does to the rest (it may remove endpoints and call the application) -/
  hook : P → Nat → P

/-- `endpoint::add_ping_timer`, `src/atbus_endpoint.cpp:418-441`, with `node::add_ping_timer`, `src/atbus_node.cpp:2102-2127`. -/
def addTimer (e : Env) (p : P) (r : Nat) : P :=
  { p with list := p.list.filter (fun x => x.2 != r) ++ (if e.interval ≤ 0 ∨ e.blocked r then [] else [(e.clock + e.interval, r)]) }

/-- `src/atbus_node.cpp:515-516`: unavailable for too long since its creation. -/
def overdue (e : Env) (p : P) (r : Nat) : Bool := !p.avail r && decide (e.created r + e.idle < e.sec)

/-- `weak_ptr::lock`. -/
def lock (e : Env) (r : Nat) : Option Nat := if e.alive r then some r else none

/-- `src/atbus_node.cpp:524-532`. -/
def pingNext (e : Env) (p : P) : Option Nat → P
  | none => p
  | some r =>
    let p := if e.parent = some r then p else { e.hook p r with pinged := (e.hook p r).pinged ++ [r] }
    addTimer e p r

/-- The end of the loop body, `src/atbus_node.cpp:535-559`; `none`: leave the loop. -/
def chooseNext (e : Env) (p : P) (tick : Int) (next : Option Nat) : Option (P × Option Nat) :=
  match p.list with
  | [] => none
  | (t, r) :: rest =>
    if t > e.sec then none
    else if t ≠ tick then some (p, none)
    else if lock e r = next then some ({ p with list := rest }, none)
    else some (p, lock e r)

/-- One round of the ping loop, `src/atbus_node.cpp:498-560`: the new state and, unless the loop ends, `next_ep`. -/
def round (e : Env) (p : P) (next : Option Nat) : P × Option (Option Nat) :=
  match p.list with
  | [] => (p, none)
  | (t, r) :: _ =>
    if t > e.sec then (p, none)
    else
      let next := next.or (lock e r)
      match next with
      | some x =>
        if overdue e p x then (addTimer e { p with gc := p.gc ++ [x] } x, some (some x))
        else
          let p := pingNext e p (some x)
          match chooseNext e p t (some x) with
          | none => (p, none)
          | some (p, n) => (p, some n)
      | none =>
        match chooseNext e p t none with
        | none => (p, none)
        | some (p, n) => (p, some n)

/-- The ping loop; `none`: not finished within the given number of rounds. -/
def loop (e : Env) : Nat → P → Option Nat → Option P
  | 0, _, _ => none
  | n + 1, p, next =>
    match round e p next with
    | (p, none) => some p
    | (p, some next) => loop e n p next

end Verif.Node.Timer
